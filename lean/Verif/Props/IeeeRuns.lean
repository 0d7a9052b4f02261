import Verif.Props.IeeeDescent
import Verif.Props.Training

/-!
# C258: whole ls-nmf runs in floating point arithmetic

C145 compares one computed update with the exact one. Here the comparison is carried through any number of updates: the computed factors after `t` updates with the exact factors after `t` updates from the same start.
-/

namespace Esat
open Fl Filter

section runs
variable {A : Arith} {c lo hi : ℚ≥0} {m n k : ℕ}

/-- The exact factors after `t` updates, the profiles being held in the iterations with `hold t`. -/
def exactRun (v we : Mat m n ℚ≥0) (hold : ℕ → Bool) (w : Mat m k ℚ≥0) (h : Mat k n ℚ≥0) : ℕ → Mat m k ℚ≥0 × Mat k n ℚ≥0
  | 0 => (w, h)
  | t + 1 =>
    let p := exactRun v we hold w h t
    (exactW v we p.1 (heldH (hold t) v we p.1 p.2), heldH (hold t) v we p.1 p.2)

/-- A bound for the number of roundings that the factors have taken part in after `t` updates. -/
def runRoundings (d : ℕ) : ℕ → ℕ
  | 0 => 0
  | t + 1 => 14 * runRoundings d t + (15 * d + 20)

theorem runRoundings_closed (d t : ℕ) : 13 * runRoundings d t = (15 * d + 20) * (14 ^ t - 1) := by
  induction t with
  | zero => simp [runRoundings]
  | succ t ih =>
    have h1 : 1 ≤ 14 ^ t := Nat.one_le_pow _ _ (by norm_num)
    have e : 14 ^ (t + 1) - 1 = 14 * (14 ^ t - 1) + 13 := by rw [pow_succ]; omega
    rw [runRoundings, e, mul_add, mul_add]
    calc 13 * (14 * runRoundings d t) + 13 * (15 * d + 20) = 14 * (13 * runRoundings d t) + 13 * (15 * d + 20) := by ring
      _ = _ := by rw [ih]; ring

theorem runRoundings_mono (d : ℕ) : Monotone (runRoundings d) := monotone_nat_of_le_succ fun t => by
  show runRoundings d t ≤ 14 * runRoundings d t + (15 * d + 20)
  omega

/-- **C258, runs.** A run of `N` updates in any arithmetic accurate up to the factor `c`, with sums in any order of at most `d` roundings per term and the profiles held or not in each of them, from exactly given factors: as long as the numbers of the
exact run stay within the accurate range, all computed factors are finite and non-negative, and after `t` updates each entry agrees with that of the exact run up to `c ^ runRoundings d t`. -/
theorem C258_run (hA : Accurate A c lo hi) {d : ℕ} {v we : Mat m n ℚ≥0} (hold : ℕ → Bool) {w : Mat m k ℚ≥0} {h : Mat k n ℚ≥0} (N : ℕ)
    (hr : ∀ t < N, (hold t = false → InRangeH c lo hi (runRoundings d N) v we (exactRun v we hold w h t).1 (exactRun v we hold w h t).2) ∧
      InRangeH c lo hi (runRoundings d N) (tr v) (tr we) (tr (exactRun v we hold w h (t + 1)).2) (tr (exactRun v we hold w h t).1))
    (W : ℕ → Mat m k Fl) (H : ℕ → Mat k n Fl) (hW0 : W 0 = fun i a => fin false (w i a)) (hH0 : H 0 = fun a j => fin false (h a j))
    (hu : ∀ t < N, A.Update d (fun i j => fin false (v i j)) (fun i j => fin false (we i j)) (hold t) (W t) (H t) (W (t + 1)) (H (t + 1))) :
    ∀ t ≤ N, (∀ i a, ∃ z, W t i a = fin false z ∧ Rel c (runRoundings d t) ((exactRun v we hold w h t).1 i a) z) ∧
      ∀ a j, ∃ z, H t a j = fin false z ∧ Rel c (runRoundings d t) ((exactRun v we hold w h t).2 a j) z := by
  have c1 := hA.one_le
  have key : ∀ t ≤ N, ∃ p q, p + q ≤ runRoundings d t ∧ (∀ i a, ∃ z, W t i a = fin false z ∧ Rel c p ((exactRun v we hold w h t).1 i a) z) ∧
      ∀ a j, ∃ z, H t a j = fin false z ∧ Rel c q ((exactRun v we hold w h t).2 a j) z := by
    intro t
    induction t with
    | zero =>
      intro _
      refine ⟨0, 0, le_refl _, fun i a => ⟨w i a, by rw [hW0], rel_refl c1 0 _⟩, fun a j => ⟨h a j, by rw [hH0], rel_refl c1 0 _⟩⟩
    | succ t ih =>
      intro ht
      obtain ⟨p, q, hpq, hW, hH⟩ := ih (by omega)
      choose w' ew rw' using hW
      choose h' eh rh using hH
      have eW : W t = fun i a => fin false (w' i a) := funext fun i => funext fun a => ew i a
      have eH : H t = fun a j => fin false (h' a j) := funext fun a => funext fun j => eh a j
      obtain ⟨h1, h2⟩ := hu t (by omega)
      obtain ⟨r1, r2⟩ := hr t (by omega)
      have hP : runRoundings d (t + 1) ≤ runRoundings d N := runRoundings_mono d ht
      have hP' : 14 * runRoundings d t + (15 * d + 20) ≤ runRoundings d N := hP
      have hHn : ∀ a j, ∃ z, H (t + 1) a j = fin false z ∧ Rel c (3 * p + 2 * q + 3 * d + 4) ((exactRun v we hold w h (t + 1)).2 a j) z := by
        intro a j
        cases hb : hold t with
        | false =>
          rw [hb] at h1
          simp only [Bool.false_eq_true, if_false] at h1
          rw [eW, eH] at h1
          have := stepH_rel (P := runRoundings d N) hA rw' rh (r1 hb) (by omega) h1 a j
          simpa only [exactRun, hb, heldH, Bool.false_eq_true, if_false] using this
        | true =>
          rw [hb] at h1
          simp only [if_true] at h1
          refine ⟨h' a j, by rw [h1, eH], ?_⟩
          simp only [exactRun, hb, heldH, if_true]
          exact rel_mono c1 (by omega) (rh a j)
      choose h'' eh'' rh'' using hHn
      have eH' : H (t + 1) = fun a j => fin false (h'' a j) := funext fun a => funext fun j => eh'' a j
      rw [eW, eH'] at h2
      have h3 := stepW_tr h2
      refine ⟨3 * (3 * p + 2 * q + 3 * d + 4) + 2 * p + 3 * d + 4, 3 * p + 2 * q + 3 * d + 4, ?_, fun i a => ?_, fun a j => ⟨h'' a j, eh'' a j, rh'' a j⟩⟩
      · show _ ≤ 14 * runRoundings d t + (15 * d + 20)
        omega
      · have := stepH_rel (P := runRoundings d N) hA (v := tr v) (we := tr we) (w := tr (exactRun v we hold w h (t + 1)).2) (w' := tr h'') (h := tr (exactRun v we hold w h t).1) (h' := tr w')
          (fun j b => rh'' b j) (fun b l => rw' l b) r2 (by omega) h3 a i
        rw [exactH_tr] at this
        obtain ⟨z, ez, rz⟩ := this
        exact ⟨z, ez, rz⟩
  intro t ht
  obtain ⟨p, q, hpq, hW, hH⟩ := key t ht
  refine ⟨fun i a => ?_, fun a j => ?_⟩
  · obtain ⟨z, ez, rz⟩ := hW i a
    exact ⟨z, ez, rel_mono c1 (by omega) rz⟩
  · obtain ⟨z, ez, rz⟩ := hH a j
    exact ⟨z, ez, rel_mono c1 (by omega) rz⟩

/-! ## Enough precision -/

theorem exactH_pos {v we : Mat m n ℚ≥0} {w : Mat m k ℚ≥0} {h : Mat k n ℚ≥0} (hm : 0 < m) (hcol : ∀ j, ∃ i, 0 < v i j) (hwe : ∀ i j, 0 < we i j) (hw : ∀ i a, 0 < w i a) (hh : ∀ a j, 0 < h a j) :
    (∀ a j, 0 < ∑ i, w i a * (we i j * ∑ b, w i b * h b j)) ∧ ∀ a j, 0 < exactH v we w h a j := by
  have hd : ∀ a j, 0 < ∑ i, w i a * (we i j * ∑ b, w i b * h b j) := fun a j =>
    Finset.sum_pos (fun i _ => mul_pos (hw i a) (mul_pos (hwe i j) (Finset.sum_pos (fun b _ => mul_pos (hw i b) (hh b j)) ⟨a, Finset.mem_univ a⟩))) ⟨⟨0, hm⟩, Finset.mem_univ _⟩
  refine ⟨hd, fun a j => mul_pos (hh a j) (div_pos ?_ (hd a j))⟩
  obtain ⟨i, hi⟩ := hcol j
  exact Finset.sum_pos' (fun i _ => zero_le) ⟨i, Finset.mem_univ _, mul_pos (hw i a) (mul_pos (hwe i j) hi)⟩

theorem exactRun_pos {v we : Mat m n ℚ≥0} {w : Mat m k ℚ≥0} {h : Mat k n ℚ≥0} (hm : 0 < m) (hn : 0 < n) (hcol : ∀ j, ∃ i, 0 < v i j) (hrow : ∀ i, ∃ j, 0 < v i j) (hwe : ∀ i j, 0 < we i j)
    (hw : ∀ i a, 0 < w i a) (hh : ∀ a j, 0 < h a j) (hold : ℕ → Bool) (t : ℕ) : (∀ i a, 0 < (exactRun v we hold w h t).1 i a) ∧ ∀ a j, 0 < (exactRun v we hold w h t).2 a j := by
  induction t with
  | zero => exact ⟨hw, hh⟩
  | succ t ih =>
    have h1 : ∀ a j, 0 < (exactRun v we hold w h (t + 1)).2 a j := by
      intro a j
      simp only [exactRun, heldH]
      split_ifs
      · exact ih.2 a j
      · exact (exactH_pos hm hcol hwe ih.1 ih.2).2 a j
    refine ⟨fun i a => ?_, h1⟩
    have := (exactH_pos (v := tr v) (we := tr we) (w := tr (exactRun v we hold w h (t + 1)).2) (h := tr (exactRun v we hold w h t).1) hn hrow (fun j i => hwe i j) (fun j a => h1 a j) (fun a i => ih.1 i a)).2 a i
    rw [exactH_tr] at this
    exact this

/-- The exact run is the course of the exact model. -/
theorem exactRun_traj {v we : Mat m n ℚ≥0} {w : Mat m k ℚ≥0} {h : Mat k n ℚ≥0} (hm : 0 < m) (hn : 0 < n) (hcol : ∀ j, ∃ i, 0 < v i j) (hrow : ∀ i, ∃ j, 0 < v i j) (hwe : ∀ i j, 0 < we i j)
    (hw : ∀ i a, 0 < w i a) (hh : ∀ a j, 0 < h a j) (flags : ℕ → Bool) (t : ℕ) :
    traj (lsLoopStep (fun i j => (v i j : ℚ)) fun i j => (we i j : ℚ)) flags (some fun i a => (w i a : ℚ), some fun a j => (h a j : ℚ)) t =
      (some fun i a => ((exactRun v we (fun t => !flags t) w h t).1 i a : ℚ), some fun a j => ((exactRun v we (fun t => !flags t) w h t).2 a j : ℚ)) := by
  induction t with
  | zero => rfl
  | succ t ih =>
    show lsLoopStep _ _ (flags t) (traj _ _ _ t) = _
    rw [ih]
    obtain ⟨p1, p2⟩ := exactRun_pos hm hn hcol hrow hwe hw hh (fun t => !flags t) t
    obtain ⟨-, p4⟩ := exactRun_pos hm hn hcol hrow hwe hw hh (fun t => !flags t) (t + 1)
    refine (C04_lsnmf_loop_is_update _ _ (flags t) _ _ _ _).1 (lsUpdate_eq_some.2 ⟨?_, ?_⟩)
    · cases hb : flags t with
      | false => exact .inl ⟨rfl, by simp only [exactRun, hb, heldH, Bool.not_false, if_true]⟩
      | true =>
        refine .inr ⟨rfl, ?_⟩
        rw [lsStepH_exact _ _ _ _ fun a j => ((exactH_pos hm hcol hwe p1 p2).1 a j).ne']
        simp only [exactRun, hb, heldH, Bool.not_true, Bool.false_eq_true, if_false]
    · have := lsStepW_exact v we (exactRun v we (fun t => !flags t) w h t).1 (exactRun v we (fun t => !flags t) w h (t + 1)).2 fun i a =>
        (Finset.sum_pos (fun j _ => mul_pos (mul_pos (hwe i j) (Finset.sum_pos (fun b _ => mul_pos (p1 i b) (p4 b j)) ⟨a, Finset.mem_univ a⟩)) (p4 a j)) ⟨⟨0, hn⟩, Finset.mem_univ _⟩).ne'
      exact this

/-- The conditions on the range hold for every number once the exponents reach far enough. -/
theorem low_far (P : ℕ) (x : ℚ≥0) : ∀ᶠ E : ℕ in atTop, ∀ c lo : ℚ≥0, c ≤ 2 → lo ≤ 2 ^ (-(E : ℤ)) → Low c lo P x := by
  rcases eq_or_ne x 0 with rfl | hx
  · exact Eventually.of_forall fun E c lo _ _ => .inl rfl
  · obtain ⟨E0, hE0⟩ := pow_unbounded_of_one_lt ((2 : ℚ≥0) ^ P / x) (one_lt_two)
    filter_upwards [eventually_ge_atTop E0] with E hE c lo hc hlo
    refine .inr ?_
    have hx0 : 0 < x := pos_iff_ne_zero.2 hx
    have h1 : (2 : ℚ≥0) ^ P ≤ x * 2 ^ E := by
      have h2 : (2 : ℚ≥0) ^ P / x ≤ 2 ^ E := hE0.le.trans (pow_le_pow_right₀ one_le_two hE)
      rw [div_le_iff₀ hx0, mul_comm] at h2
      exact h2
    calc lo * c ^ P ≤ 2 ^ (-(E : ℤ)) * 2 ^ P := mul_le_mul' hlo (pow_le_pow_left₀ zero_le hc P)
      _ ≤ 2 ^ (-(E : ℤ)) * (x * 2 ^ E) := mul_le_mul_right h1 _
      _ = x := by
        rw [zpow_neg, zpow_natCast]
        have : (2 : ℚ≥0) ^ E ≠ 0 := pow_ne_zero _ two_ne_zero
        field_simp

theorem high_far (P : ℕ) (x : ℚ≥0) : ∀ᶠ E : ℕ in atTop, ∀ c hi : ℚ≥0, c ≤ 2 → 2 ^ (E : ℤ) ≤ hi → High c hi P x := by
  obtain ⟨E0, hE0⟩ := pow_unbounded_of_one_lt (x * 2 ^ P) (one_lt_two (α := ℚ≥0))
  filter_upwards [eventually_ge_atTop E0] with E hE c hi hc hhi
  calc x * c ^ P ≤ x * 2 ^ P := mul_le_mul_right (pow_le_pow_left₀ zero_le hc P) _
    _ ≤ 2 ^ E := hE0.le.trans (pow_le_pow_right₀ one_le_two hE)
    _ = 2 ^ (E : ℤ) := (zpow_natCast _ _).symm
    _ ≤ hi := hhi

theorem inRangeH_far (P : ℕ) {v we : Mat m n ℚ≥0} {w : Mat m k ℚ≥0} {h : Mat k n ℚ≥0} (hne : ∀ a j, ∑ i, w i a * (we i j * ∑ b, w i b * h b j) ≠ 0) :
    ∀ᶠ E : ℕ in atTop, ∀ c lo hi : ℚ≥0, c ≤ 2 → lo ≤ 2 ^ (-(E : ℤ)) → 2 ^ (E : ℤ) ≤ hi → InRangeH c lo hi P v we w h := by
  have L2 : ∀ {α β : Type} [Finite α] [Finite β] (f : α → β → ℚ≥0), ∀ᶠ E : ℕ in atTop, ∀ x y, ∀ c lo : ℚ≥0, c ≤ 2 → lo ≤ 2 ^ (-(E : ℤ)) → Low c lo P (f x y) := fun f =>
    eventually_all.2 fun x => eventually_all.2 fun y => low_far P _
  have H2 : ∀ {α β : Type} [Finite α] [Finite β] (f : α → β → ℚ≥0), ∀ᶠ E : ℕ in atTop, ∀ x y, ∀ c hi : ℚ≥0, c ≤ 2 → 2 ^ (E : ℤ) ≤ hi → High c hi P (f x y) := fun f =>
    eventually_all.2 fun x => eventually_all.2 fun y => high_far P _
  have L3 : ∀ {α β γ : Type} [Finite α] [Finite β] [Finite γ] (f : α → β → γ → ℚ≥0), ∀ᶠ E : ℕ in atTop, ∀ x y z, ∀ c lo : ℚ≥0, c ≤ 2 → lo ≤ 2 ^ (-(E : ℤ)) → Low c lo P (f x y z) := fun f =>
    eventually_all.2 fun x => eventually_all.2 fun y => eventually_all.2 fun z => low_far P _
  filter_upwards [L2 fun i j => we i j * v i j, H2 fun i j => we i j * v i j, L3 fun (_i : Fin m) (j : Fin n) (a : Fin k) => w _i a * h a j, H2 fun (i : Fin m) (j : Fin n) => ∑ a, w i a * h a j,
    L2 fun i j => we i j * ∑ a, w i a * h a j, H2 fun i j => we i j * ∑ a, w i a * h a j, L3 fun i j a => w i a * (we i j * v i j), H2 fun (a : Fin k) j => ∑ i, w i a * (we i j * v i j),
    L3 fun i j a => w i a * (we i j * ∑ b, w i b * h b j), H2 fun (a : Fin k) j => ∑ i, w i a * (we i j * ∑ b, w i b * h b j),
    L2 fun (a : Fin k) j => (∑ i, w i a * (we i j * v i j)) / ∑ i, w i a * (we i j * ∑ b, w i b * h b j),
    H2 fun (a : Fin k) j => (∑ i, w i a * (we i j * v i j)) / ∑ i, w i a * (we i j * ∑ b, w i b * h b j), L2 (exactH v we w h), H2 (exactH v we w h)]
    with E e1 e2 e3 e4 e5 e6 e7 e8 e9 e10 e11 e12 e13 e14 c lo hi hc hlo hhi
  exact ⟨fun i j => ⟨e1 i j c lo hc hlo, e2 i j c hi hc hhi⟩, fun i j a => e3 i j a c lo hc hlo, fun i j => e4 i j c hi hc hhi, fun i j => ⟨e5 i j c lo hc hlo, e6 i j c hi hc hhi⟩, fun i j a => e7 i j a c lo hc hlo,
    fun a j => e8 a j c hi hc hhi, fun i j a => e9 i j a c lo hc hlo, fun a j => e10 a j c hi hc hhi, hne, fun a j => ⟨e11 a j c lo hc hlo, e12 a j c hi hc hhi⟩, fun a j => ⟨e13 a j c lo hc hlo, e14 a j c hi hc hhi⟩⟩

/-- **C258, precision.** For all non-negative data without an empty row or column, positive weights and factors, every number `N` of updates, every number `d` of roundings per term and every accuracy `ε` there are a number of bits and
an exponent such that in every binary format with at least this precision and exponent range, whatever the order of the sums, the computed factors after at most `N` updates are finite and each entry agrees with that of the exact run up
to the relative error `ε`. -/
theorem C258_precision {v we : Mat m n ℚ≥0} {w : Mat m k ℚ≥0} {h : Mat k n ℚ≥0} (hm : 0 < m) (hn : 0 < n) (hcol : ∀ j, ∃ i, 0 < v i j) (hrow : ∀ i, ∃ j, 0 < v i j) (hwe : ∀ i j, 0 < we i j)
    (hw : ∀ i a, 0 < w i a) (hh : ∀ a j, 0 < h a j) (flags : ℕ → Bool) (N d : ℕ) (ε : ℚ) (hε : 0 < ε) :
    ∃ p E : ℕ, ∀ F : Format, p ≤ F.prec → F.emin ≤ -(E : ℤ) → (E : ℤ) ≤ F.emax → ∀ (W : ℕ → Mat m k Fl) (H : ℕ → Mat k n Fl),
      W 0 = (fun i a => fin false (w i a)) → H 0 = (fun a j => fin false (h a j)) →
      (∀ t < N, F.arith.Update d (fun i j => fin false (v i j)) (fun i j => fin false (we i j)) (!flags t) (W t) (H t) (W (t + 1)) (H (t + 1))) →
      ∀ t ≤ N, ∃ (Wt : Mat m k ℚ) (Ht : Mat k n ℚ),
        traj (lsLoopStep (fun i j => (v i j : ℚ)) fun i j => (we i j : ℚ)) flags (some fun i a => (w i a : ℚ), some fun a j => (h a j : ℚ)) t = (some Wt, some Ht) ∧
        (∀ i a, ∃ z : ℚ≥0, W t i a = fin false z ∧ |(z : ℚ) - Wt i a| ≤ ε * Wt i a) ∧ ∀ a j, ∃ z : ℚ≥0, H t a j = fin false z ∧ |(z : ℚ) - Ht a j| ≤ ε * Ht a j := by
  set R := runRoundings d N with hR
  have hpos := exactRun_pos hm hn hcol hrow hwe hw hh fun t => !flags t
  have hrange : ∀ᶠ E : ℕ in atTop, ∀ t : Fin N, ∀ c lo hi : ℚ≥0, c ≤ 2 → lo ≤ 2 ^ (-(E : ℤ)) → 2 ^ (E : ℤ) ≤ hi →
      InRangeH c lo hi R v we (exactRun v we (fun t => !flags t) w h t).1 (exactRun v we (fun t => !flags t) w h t).2 ∧
      InRangeH c lo hi R (tr v) (tr we) (tr (exactRun v we (fun t => !flags t) w h (t + 1)).2) (tr (exactRun v we (fun t => !flags t) w h t).1) := by
    refine eventually_all.2 fun t => ?_
    filter_upwards [inRangeH_far R (fun a j => ((exactH_pos hm hcol hwe (hpos t).1 (hpos t).2).1 a j).ne'),
      inRangeH_far (v := tr v) (we := tr we) (w := tr (exactRun v we (fun t => !flags t) w h (t + 1)).2) (h := tr (exactRun v we (fun t => !flags t) w h t).1) R
        (fun a i => ((exactH_pos (v := tr v) hn hrow (fun j i => hwe i j) (fun j a => (hpos (t + 1)).2 a j) (fun a i => (hpos t).1 i a)).1 a i).ne')] with E h1 h2 c lo hi a1 a2 a3
    exact ⟨h1 c lo hi a1 a2 a3, h2 c lo hi a1 a2 a3⟩
  obtain ⟨E, hE⟩ := hrange.exists
  obtain ⟨p, hp⟩ := pow_unbounded_of_one_lt (2 * (R : ℚ) / ε + 2 * R + 1) (one_lt_two (α := ℚ))
  refine ⟨p + 2, E, fun F hF hmin hmax W H hW0 hH0 hu => ?_⟩
  have hA := C145_format F (by omega)
  obtain ⟨M, hM⟩ : ∃ M : ℕ, 2 ^ F.prec = M + 1 := ⟨2 ^ F.prec - 1, by have := Nat.one_le_two_pow (n := F.prec); omega⟩
  have hMp : 2 * (R : ℚ) / ε + 2 * R ≤ M := by
    have h1 : (2 : ℚ) ^ p ≤ 2 ^ F.prec := pow_le_pow_right₀ one_le_two (by omega)
    have h2 : (2 : ℚ) ^ F.prec = M + 1 := by exact_mod_cast hM
    linarith
  have hM4 : 4 ≤ M + 1 := by
    rw [← hM]
    calc 4 = 2 ^ 2 := rfl
      _ ≤ 2 ^ F.prec := Nat.pow_le_pow_right (by norm_num) (by omega)
  have hM0 : (0 : ℚ≥0) < M := by exact_mod_cast (by omega : 0 < M)
  have hM0' : (0 : ℚ) < M := by exact_mod_cast (by omega : 0 < M)
  have hc : (2 ^ F.prec / (2 ^ F.prec - 1 : ℕ) : ℚ≥0) = (M + 1) / M := by
    have e1 : (2 : ℚ≥0) ^ F.prec = M + 1 := by exact_mod_cast hM
    rw [e1, hM, Nat.add_sub_cancel]
  rw [hc] at hA
  have hc2 : ((M + 1) / M : ℚ≥0) ≤ 2 := by
    rw [div_le_iff₀ hM0]
    exact_mod_cast (by omega : M + 1 ≤ 2 * M)
  have hlo : (2 ^ F.emin : ℚ≥0) ≤ 2 ^ (-(E : ℤ)) := zpow_le_zpow_right₀ one_le_two hmin
  have hhi : (2 ^ (E : ℤ) : ℚ≥0) ≤ 2 ^ F.emax := zpow_le_zpow_right₀ one_le_two hmax
  have key := C258_run hA (fun t => !flags t) N (fun t ht => by
    obtain ⟨r1, r2⟩ := hE ⟨t, ht⟩ _ _ _ hc2 hlo hhi
    exact ⟨fun _ => r1, r2⟩) W H hW0 hH0 hu
  have hsmall : (((M + 1) / M : ℚ≥0) : ℚ) ^ R - 1 ≤ ε := by
    have e : (((M + 1) / M : ℚ≥0) : ℚ) = 1 + 1 / M := by
      push_cast
      field_simp
    rw [e]
    have hRM : 2 * (R : ℚ) ≤ M := le_trans (le_add_of_nonneg_left (by positivity)) hMp
    have h1 := pow_one_add_inv hM0' R hRM
    have h2 : 2 * (R : ℚ) / M ≤ ε := by
      rw [div_le_iff₀ hM0']
      have h3 : 2 * (R : ℚ) / ε ≤ M := le_trans (le_add_of_nonneg_right (by positivity)) hMp
      rw [div_le_iff₀ hε] at h3
      linarith
    linarith
  have hrel : ∀ t ≤ N, ∀ x z : ℚ≥0, Rel ((M + 1) / M) (runRoundings d t) x z → |(z : ℚ) - x| ≤ ε * x := by
    intro t ht x z hr
    have h1 := rel_abs hA.one_le (rel_mono hA.one_le (runRoundings_mono d ht) hr)
    refine h1.trans (mul_le_mul_of_nonneg_right ?_ x.2)
    exact hsmall
  intro t ht
  obtain ⟨k1, k2⟩ := key t ht
  refine ⟨_, _, exactRun_traj hm hn hcol hrow hwe hw hh flags t, fun i a => ?_, fun a j => ?_⟩
  · obtain ⟨z, ez, rz⟩ := k1 i a
    exact ⟨z, ez, hrel t ht _ _ rz⟩
  · obtain ⟨z, ez, rz⟩ := k2 a j
    exact ⟨z, ez, hrel t ht _ _ rz⟩

/-- Computed runs exist from every start, in every arithmetic, if `d` is at least the number of terms of each sum. -/
theorem computed_runs_exist (A : Arith) {d : ℕ} (hd : max m (max n k) ≤ d) (V We : Mat m n Fl) (hold : ℕ → Bool) (W : Mat m k Fl) (H : Mat k n Fl) :
    ∃ (Ws : ℕ → Mat m k Fl) (Hs : ℕ → Mat k n Fl), Ws 0 = W ∧ Hs 0 = H ∧ ∀ t, A.Update d V We (hold t) (Ws t) (Hs t) (Ws (t + 1)) (Hs (t + 1)) := by
  have ex : ∀ (b : Bool) (p : Mat m k Fl × Mat k n Fl), ∃ p' : Mat m k Fl × Mat k n Fl, A.Update d V We b p.1 p.2 p'.1 p'.2 := fun b p => by
    obtain ⟨W', H', W₁, H₁, hu, -⟩ := run_exists (A := A) hd V We [b] p.1 p.2
    exact ⟨(W₁, H₁), hu⟩
  choose f hf using ex
  let s : ℕ → Mat m k Fl × Mat k n Fl := fun t => Nat.rec (W, H) (fun t p => f (hold t) p) t
  exact ⟨fun t => (s t).1, fun t => (s t).2, rfl, rfl, fun t => hf (hold t) (s t)⟩

/-- The hypotheses of `C258_precision` for a start of two factors, and the computed runs it speaks about. -/
example (F : Format) (flags : ℕ → Bool) :
    let v : Mat 2 2 ℚ≥0 := ![![6, 5], ![0, 7]]
    let we : Mat 2 2 ℚ≥0 := ![![1, 1 / 4], ![2, 1]]
    let w : Mat 2 2 ℚ≥0 := ![![1, 2], ![3, 1]]
    let h : Mat 2 2 ℚ≥0 := ![![1 / 2, 1], ![1, 3]]
    (∀ j, ∃ i, 0 < v i j) ∧ (∀ i, ∃ j, 0 < v i j) ∧ (∀ i j, 0 < we i j) ∧ (∀ i a, 0 < w i a) ∧ (∀ a j, 0 < h a j) ∧
      ∃ (W H : ℕ → Mat 2 2 Fl), W 0 = (fun i a => fin false (w i a)) ∧ H 0 = (fun a j => fin false (h a j)) ∧
        ∀ t, F.arith.Update 2 (fun i j => fin false (v i j)) (fun i j => fin false (we i j)) (!flags t) (W t) (H t) (W (t + 1)) (H (t + 1)) := by
  refine ⟨by decide +kernel, by decide +kernel, by decide +kernel, by decide +kernel, by decide +kernel, computed_runs_exist F.arith (by decide) _ _ (fun t => !flags t) _ _⟩

/-- The hypotheses of `C258_run` for two updates of one factor in single precision. -/
example : ∀ t < 2, (false = false → InRangeH (16777216 / 16777215) (2 ^ (-126 : ℤ)) (2 ^ (127 : ℤ)) (runRoundings 1 2) (fun _ _ => 1 : Mat 1 1 ℚ≥0) (fun _ _ => 1)
      (exactRun (fun _ _ => 1) (fun _ _ => 1) (fun _ => false) (fun _ _ => 21 : Mat 1 1 ℚ≥0) (fun _ _ => 3 : Mat 1 1 ℚ≥0) t).1 (exactRun (fun _ _ => 1) (fun _ _ => 1) (fun _ => false) (fun _ _ => 21 : Mat 1 1 ℚ≥0) (fun _ _ => 3 : Mat 1 1 ℚ≥0) t).2) ∧
    InRangeH (16777216 / 16777215) (2 ^ (-126 : ℤ)) (2 ^ (127 : ℤ)) (runRoundings 1 2) (tr fun _ _ => 1 : Mat 1 1 ℚ≥0) (tr fun _ _ => 1)
      (tr (exactRun (fun _ _ => 1) (fun _ _ => 1) (fun _ => false) (fun _ _ => 21 : Mat 1 1 ℚ≥0) (fun _ _ => 3 : Mat 1 1 ℚ≥0) (t + 1)).2) (tr (exactRun (fun _ _ => 1) (fun _ _ => 1) (fun _ => false) (fun _ _ => 21 : Mat 1 1 ℚ≥0) (fun _ _ => 3 : Mat 1 1 ℚ≥0) t).1) := by
  intro t ht
  have h0 : t = 0 ∨ t = 1 := by omega
  rcases h0 with rfl | rfl
  · refine ⟨fun _ => ⟨?_, ?_, ?_, ?_, ?_, ?_, ?_, ?_, ?_, ?_, ?_⟩, ⟨?_, ?_, ?_, ?_, ?_, ?_, ?_, ?_, ?_, ?_, ?_⟩⟩ <;>
      (try unfold Low) <;> (try unfold High) <;> decide +kernel
  · refine ⟨fun _ => ⟨?_, ?_, ?_, ?_, ?_, ?_, ?_, ?_, ?_, ?_, ?_⟩, ⟨?_, ?_, ?_, ?_, ?_, ?_, ?_, ?_, ?_, ?_, ?_⟩⟩ <;>
      (try unfold Low) <;> (try unfold High) <;> decide +kernel

end runs

end Esat
