import Verif.Props.IeeeDescent

/-!
# The weights in single precision (C229)
-/

namespace Esat
open Fl

theorem le_rne (N : ℕ) {z : ℚ≥0} (h : (N : ℚ≥0) ≤ z) : N ≤ Format.rne z := by
  have hf : N ≤ ⌊z⌋₊ := Nat.le_floor h
  unfold Format.rne
  split_ifs <;> omega

/-- Rounding does not cross a representable power of two from above. -/
theorem two_pow_le_nearest (F : Format) {e : ℤ} (he : F.emin - (F.prec - 1) ≤ e) (hp : 1 ≤ F.prec) {x : ℚ≥0} (hx : 2 ^ e ≤ x) :
    2 ^ e ≤ F.nearest x := by
  have hx0 : 0 < x := lt_of_lt_of_le (zpow_pos two_pos _) hx
  have hL : e ≤ Int.log 2 x := by
    rw [← Int.zpow_le_iff_le_log (by norm_num) hx0]
    exact_mod_cast hx
  have hlog : (2 : ℚ≥0) ^ Int.log 2 x ≤ x := by
    have := Int.zpow_log_le_self (b := 2) (by norm_num) hx0
    exact_mod_cast this
  have hu0 : 0 < F.ulp (Int.log 2 x) := zpow_pos two_pos _
  obtain ⟨N, hN⟩ := Int.eq_ofNat_of_zero_le (a := Int.log 2 x - (max (Int.log 2 x) F.emin - (F.prec - 1))) (by
    rcases le_total (Int.log 2 x) F.emin with h | h
    · rw [max_eq_right h]; omega
    · rw [max_eq_left h]; omega)
  have e1 : (2 : ℚ≥0) ^ Int.log 2 x = ((2 ^ N : ℕ) : ℚ≥0) * F.ulp (Int.log 2 x) := by
    rw [Format.ulp]
    push_cast
    rw [← zpow_natCast, ← hN, ← zpow_add₀ two_ne_zero, sub_add_cancel]
  have h1 : ((2 ^ N : ℕ) : ℚ≥0) ≤ x / F.ulp (Int.log 2 x) := by
    rw [le_div_iff₀ hu0, ← e1]
    exact hlog
  calc (2 : ℚ≥0) ^ e ≤ 2 ^ Int.log 2 x := zpow_le_zpow_right₀ (by norm_num) hL
    _ = ((2 ^ N : ℕ) : ℚ≥0) * F.ulp (Int.log 2 x) := e1
    _ ≤ F.nearest x := by
      unfold Format.nearest
      gcongr
      exact le_rne _ h1

/-- The rounded value exceeds the exact one by at most half a unit in the last place. -/
theorem nearest_le (F : Format) (x : ℚ≥0) : 2 * F.nearest x ≤ 2 * x + F.ulp (Int.log 2 x) := by
  have hu0 : 0 < F.ulp (Int.log 2 x) := zpow_pos two_pos _
  have := mul_le_mul_left (rne_near (x / F.ulp (Int.log 2 x))).1 (F.ulp (Int.log 2 x))
  rw [add_mul, one_mul, mul_assoc, mul_assoc, div_mul_cancel₀ x hu0.ne'] at this
  exact this

/-- Overflow. -/
theorem rnd_overflow (F : Format) (hp : 1 ≤ F.prec) (he : F.emin ≤ F.emax) {x : ℚ≥0} (hx : 2 ^ (F.emax + 1) ≤ x) : F.rnd x = none := by
  rw [Format.rnd, if_pos (two_pow_le_nearest F (by omega) hp hx)]

/-- C229: from `2^64` on the weight is zero. -/
theorem C229_large (s : Bool) {u : ℚ≥0} (h : 2 ^ 64 ≤ u) : binary32.arith.weightF (fin s u) = fin false 0 := by
  have h1 : (2 : ℚ≥0) ^ (binary32.emax + 1) ≤ u * u := by
    calc (2 : ℚ≥0) ^ (binary32.emax + 1) = 2 ^ 64 * 2 ^ 64 := by norm_num [binary32]
      _ ≤ u * u := mul_le_mul' h h
  have h2 : binary32.arith.mul (fin s u) (fin s u) = inf false := by
    have := rnd_overflow binary32 (by decide) (by decide) h1
    have e : binary32.arith.rnd (u * u) = none := this
    cases s <;> simp [Arith.mul, Arith.mulWith, Arith.round, e]
  rw [Arith.weightF, h2]
  rfl

/-- A number of the format. -/
def Format.IsNumber (F : Format) (x : ℚ≥0) : Prop := ∃ k : ℕ, x = k * F.ulp (Int.log 2 x)

/-- The largest single precision number below `2^64`. -/
theorem number_below {u : ℚ≥0} (hu : binary32.IsNumber u) (h : u < 2 ^ 64) : u ≤ 2 ^ 64 - 2 ^ 40 := by
  by_cases h63 : u < 2 ^ 63
  · refine h63.le.trans ?_
    decide +kernel
  · have h63 := not_lt.1 h63
    have hu0 : 0 < u := lt_of_lt_of_le (by positivity) h63
    have hL : Int.log 2 u = 63 := by
      apply le_antisymm
      · have : Int.log 2 u < 64 := by
          rw [← Int.lt_zpow_iff_log_lt (by norm_num) hu0]
          exact_mod_cast h
        omega
      · rw [← Int.zpow_le_iff_le_log (by norm_num) hu0]
        exact_mod_cast h63
    obtain ⟨k, hk⟩ := hu
    rw [hL] at hk
    have e : binary32.ulp 63 = 2 ^ 40 := by decide +kernel
    rw [e] at hk
    rw [hk] at h ⊢
    have hk2 : k < 2 ^ 24 := by
      have : (k : ℚ≥0) * 2 ^ 40 < ((2 ^ 24 : ℕ) : ℚ≥0) * 2 ^ 40 := by
        refine h.trans_le (le_of_eq ?_)
        norm_num
      exact_mod_cast lt_of_mul_lt_mul_right this (by positivity)
    have : (k : ℚ≥0) ≤ ((2 ^ 24 - 1 : ℕ) : ℚ≥0) := by
      exact_mod_cast Nat.le_sub_one_of_lt hk2
    calc (k : ℚ≥0) * 2 ^ 40 ≤ ((2 ^ 24 - 1 : ℕ) : ℚ≥0) * 2 ^ 40 := mul_le_mul_left this _
      _ = 2 ^ 64 - 2 ^ 40 := by decide +kernel

/-- C229: between `2^-40` and `2^62` the weight is the reciprocal of the square up to two roundings. -/
theorem C229_accurate (s : Bool) {u : ℚ≥0} (h1 : 1 / 2 ^ 40 ≤ u) (h2 : u ≤ 2 ^ 62) :
    ∃ z, binary32.arith.weightF (fin s u) = fin false z ∧ Rel (16777216 / 16777215) 2 (1 / u ^ 2) z := by
  have hu0 : u ≠ 0 := (lt_of_lt_of_le (by positivity) h1).ne'
  have a1 : (1 / 2 ^ 40 : ℚ≥0) * (1 / 2 ^ 40) ≤ u * u := mul_le_mul' h1 h1
  have a2 : u * u ≤ (2 : ℚ≥0) ^ 62 * 2 ^ 62 := mul_le_mul' h2 h2
  have huu : 0 < u * u := mul_pos (pos_iff_ne_zero.2 hu0) (pos_iff_ne_zero.2 hu0)
  have a3 : 1 / ((2 : ℚ≥0) ^ 62 * 2 ^ 62) ≤ 1 / (u * u) := one_div_le_one_div_of_le huu a2
  have a4 : 1 / (u * u) ≤ 1 / ((1 / 2 ^ 40 : ℚ≥0) * (1 / 2 ^ 40)) := one_div_le_one_div_of_le (by positivity) a1
  refine C228_weights C145_binary32 s hu0 (Or.inr (le_trans ?_ a1)) ((mul_le_mul_left a2 _).trans ?_) (Or.inr (le_trans ?_ a3))
    ((mul_le_mul_left a4 _).trans ?_) <;> decide +kernel

/-- C229: the weight of a number of single precision that is not below `2^-40` is finite, not negative, and zero exactly from `2^64` on. -/
theorem C229_zero_iff (s : Bool) {u : ℚ≥0} (hu : binary32.IsNumber u) (h : 1 / 2 ^ 40 ≤ u) :
    ∃ z, binary32.arith.weightF (fin s u) = fin false z ∧ (z = 0 ↔ 2 ^ 64 ≤ u) := by
  rcases le_or_gt (2 ^ 64) u with h1 | h1
  · exact ⟨0, C229_large s h1, by simp [h1]⟩
  rcases le_or_gt u (2 ^ 62) with h2 | h2
  · obtain ⟨z, hz, rz⟩ := C229_accurate s h h2
    refine ⟨z, hz, ?_⟩
    simp only [h1.not_ge, iff_false]
    rintro rfl
    have := rz.1
    rw [zero_mul] at this
    have hu0 : u ≠ 0 := (lt_of_lt_of_le (by positivity) h).ne'
    have hp : 0 < 1 / u ^ 2 := by positivity
    exact absurd this (not_le.2 hp)
  · have h3 := number_below hu h1
    have huu : (2 : ℚ≥0) ^ 62 * 2 ^ 62 ≤ u * u := mul_le_mul' h2.le h2.le
    have huu2 : u * u ≤ (2 ^ 64 - 2 ^ 40 : ℚ≥0) * (2 ^ 64 - 2 ^ 40) := mul_le_mul' h3 h3
    have hx0 : 0 < u * u := lt_of_lt_of_le (by positivity) huu
    have hL : Int.log 2 (u * u) ≤ 127 := by
      have : Int.log 2 (u * u) < 128 := by
        rw [← Int.lt_zpow_iff_log_lt (by norm_num) hx0]
        refine huu2.trans_lt ?_
        decide +kernel
      omega
    have hy1 : (2 : ℚ≥0) ^ (124 : ℤ) ≤ binary32.nearest (u * u) := by
      refine two_pow_le_nearest binary32 (by decide) (by decide) (le_trans ?_ huu)
      decide +kernel
    have hy2 : binary32.nearest (u * u) < 2 ^ (128 : ℤ) := by
      have hul : binary32.ulp (Int.log 2 (u * u)) ≤ 2 ^ (104 : ℤ) := by
        unfold Format.ulp
        refine zpow_le_zpow_right₀ (by norm_num) ?_
        have : max (Int.log 2 (u * u)) binary32.emin ≤ 127 := max_le hL (by decide)
        have e : ((binary32.prec : ℕ) : ℤ) = 24 := rfl
        rw [e]
        omega
      have h4 := nearest_le binary32 (u * u)
      have h5 : 2 * binary32.nearest (u * u) ≤ 2 * ((2 ^ 64 - 2 ^ 40 : ℚ≥0) * (2 ^ 64 - 2 ^ 40)) + 2 ^ (104 : ℤ) :=
        h4.trans (add_le_add (mul_le_mul_right huu2 _) hul)
      have h6 : 2 * ((2 ^ 64 - 2 ^ 40 : ℚ≥0) * (2 ^ 64 - 2 ^ 40)) + 2 ^ (104 : ℤ) < 2 * 2 ^ (128 : ℤ) := by decide +kernel
      exact lt_of_mul_lt_mul_left (h5.trans_lt h6) (by norm_num)
    have hm : binary32.arith.mul (fin s u) (fin s u) = fin false (binary32.nearest (u * u)) := by
      have e : binary32.arith.rnd (u * u) = some (binary32.nearest (u * u)) := by
        show binary32.rnd (u * u) = _
        have hn : ¬ (2 : ℚ≥0) ^ (binary32.emax + 1) ≤ binary32.nearest (u * u) := not_le.2 hy2
        rw [Format.rnd, if_neg hn]
      cases s <;> simp [Arith.mul, Arith.mulWith, Arith.round, e]
    set y := binary32.nearest (u * u) with hy
    have hy0 : 0 < y := lt_of_lt_of_le (zpow_pos two_pos _) hy1
    have hi1 : (2 : ℚ≥0) ^ (-128 : ℤ) ≤ 1 / y := by
      have := one_div_le_one_div_of_le hy0 hy2.le
      rwa [one_div, ← zpow_neg] at this
    have hi2 : 1 / y ≤ 1 := by
      rw [div_le_one hy0]
      refine le_trans ?_ hy1
      decide +kernel
    have hz1 : (2 : ℚ≥0) ^ (-128 : ℤ) ≤ binary32.nearest (1 / y) := two_pow_le_nearest binary32 (by decide) (by decide) hi1
    have hz2 : ¬ (2 : ℚ≥0) ^ (binary32.emax + 1) ≤ binary32.nearest (1 / y) := by
      rw [not_le]
      have hpos : 0 < 1 / y := lt_of_lt_of_le (zpow_pos two_pos _) hi1
      have hL2 : Int.log 2 (1 / y) ≤ 0 := by
        have : Int.log 2 (1 / y) < 1 := by
          rw [← Int.lt_zpow_iff_log_lt (by norm_num) hpos]
          refine hi2.trans_lt ?_
          decide +kernel
        omega
      have hul : binary32.ulp (Int.log 2 (1 / y)) ≤ 2 ^ (0 : ℤ) := by
        unfold Format.ulp
        refine zpow_le_zpow_right₀ (by norm_num) ?_
        have : max (Int.log 2 (1 / y)) binary32.emin ≤ 0 := max_le hL2 (by decide)
        have e : ((binary32.prec : ℕ) : ℤ) = 24 := rfl
        rw [e]
        omega
      have h4 := (nearest_le binary32 (1 / y)).trans (add_le_add (mul_le_mul_right hi2 2) hul)
      have h6 : (2 * 1 + 2 ^ (0 : ℤ) : ℚ≥0) < 2 * 2 ^ (binary32.emax + 1) := by decide +kernel
      exact lt_of_mul_lt_mul_left (h4.trans_lt h6) (by norm_num)
    refine ⟨binary32.nearest (1 / y), ?_, ?_⟩
    · have e : binary32.arith.rnd (1 / y) = some (binary32.nearest (1 / y)) := by
        show binary32.rnd (1 / y) = _
        rw [Format.rnd, if_neg hz2]
      rw [Arith.weightF, hm]
      simp only [Arith.div, hy0.ne', if_false, Arith.round, e, Bool.xor_self]
    · simp only [h1.not_ge, iff_false]
      exact (lt_of_lt_of_le (zpow_pos two_pos _) hz1).ne'

/-- `EPSILON` in single precision. -/
theorem eps_binary32 : ∃ x, binary32.eps = fin false x ∧ 1 / 2 ^ 40 ≤ x ∧ x ≤ 1 := by
  refine ⟨binary32.nearest (1 / 10 ^ 12), ?_, ?_, ?_⟩ <;> decide +kernel

/-- C229: after the replacement of small uncertainties the weight is NaN for NaN; uncertainties below `EPSILON`, also negative ones, have one and the same
positive weight; every other weight is finite and not negative, and zero exactly if the uncertainty is infinite or at least `2^64`. -/
theorem C229_weight : ∃ z₀ : ℚ≥0, z₀ ≠ 0 ∧ ∀ x : Fl, (∀ s y, x = fin s y → binary32.IsNumber y) →
    (x = nan ∧ binary32.arith.weightF (Arith.floorF binary32.eps x) = nan) ∨
    (x.lt binary32.eps = true ∧ binary32.arith.weightF (Arith.floorF binary32.eps x) = fin false z₀) ∨
    (x = inf false ∧ binary32.arith.weightF (Arith.floorF binary32.eps x) = fin false 0) ∨
    ∃ u z, x = fin false u ∧ x.lt binary32.eps = false ∧ binary32.arith.weightF (Arith.floorF binary32.eps x) = fin false z ∧
      (z = 0 ↔ 2 ^ 64 ≤ u) := by
  obtain ⟨e, he, e1, e2⟩ := eps_binary32
  have he0 : e ≠ 0 := (lt_of_lt_of_le (by positivity) e1).ne'
  obtain ⟨z₀, hz, rz⟩ := C229_accurate false e1 (e2.trans (by norm_num))
  refine ⟨z₀, ?_, fun x hx => ?_⟩
  · rintro rfl
    have := rz.1
    rw [zero_mul] at this
    have hp : 0 < 1 / e ^ 2 := by positivity
    exact absurd this (not_le.2 hp)
  · rw [he]
    by_cases hlt : x.lt (fin false e) = true
    · exact .inr (.inl ⟨hlt, by rw [Arith.floorF, if_pos hlt, hz]⟩)
    · have hfl : Arith.floorF (fin false e) x = x := if_neg hlt
      rw [hfl]
      match x, hx, hlt with
      | nan, _, _ => exact .inl ⟨rfl, rfl⟩
      | inf true, _, h => exact absurd rfl h
      | inf false, _, _ => exact .inr (.inr (.inl ⟨rfl, rfl⟩))
      | fin true y, _, h => exact absurd (by simp [Fl.lt, he0]) h
      | fin false u, hx, h =>
        have hu : e ≤ u := by simpa [Fl.lt] using h
        obtain ⟨z, hz, hi⟩ := C229_zero_iff false (hx false u rfl) (e1.trans hu)
        exact .inr (.inr (.inr ⟨u, z, rfl, by simpa using h, hz, hi⟩))

/-- Entries of weight zero: the product with the data is zero whatever the data. -/
theorem C229_product {A : Arith} (x : ℚ≥0) : A.mul (fin false 0) (fin false x) = fin false 0 := by
  simp [Arith.mul, Arith.mulWith, Arith.round, A.rnd_zero]

/-- C229: entries of weight zero have no influence on an update: data that differ only there give the same updates. -/
theorem C229_ignored {A : Arith} {m n k d : ℕ} {V V' We : Mat m n Fl} (h : ∀ i j, V i j = V' i j ∨
      We i j = fin false 0 ∧ (∃ x, V i j = fin false x) ∧ ∃ x, V' i j = fin false x) (hold : Bool) (W W' : Mat m k Fl) (H H' : Mat k n Fl) :
    A.Update d V We hold W H W' H' ↔ A.Update d V' We hold W H W' H' := by
  have e : (fun i j => A.mul (We i j) (V i j)) = fun i j => A.mul (We i j) (V' i j) := by
    funext i j
    rcases h i j with h | ⟨h0, ⟨x, hx⟩, y, hy⟩
    · rw [h]
    · rw [h0, hx, hy, C229_product, C229_product]
  unfold Arith.Update Arith.StepH Arith.StepW
  rw [e]

/-! ## The hypotheses can be met -/

/-- `1e20` in single precision is a number of the format, and its weight is zero. -/
example : binary32.IsNumber (11368684 * 2 ^ 43) ∧ binary32.arith.weightF (fin false (11368684 * 2 ^ 43)) = fin false 0 :=
  ⟨⟨11368684, by decide +kernel⟩, C229_large false (by norm_num)⟩

/-- `1e19` is not ignored. -/
example : binary32.IsNumber (9094947 * 2 ^ 40) ∧ ∃ z, z ≠ 0 ∧ binary32.arith.weightF (fin false (9094947 * 2 ^ 40)) = fin false z := by
  have hn : binary32.IsNumber (9094947 * 2 ^ 40) := ⟨9094947, by decide +kernel⟩
  obtain ⟨z, hz, hi⟩ := C229_zero_iff false hn (by decide +kernel)
  exact ⟨hn, z, fun h => absurd (hi.1 h) (by norm_num), hz⟩

end Esat
