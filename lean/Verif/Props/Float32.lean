import Verif.Model.Float32
import Verif.Props.FloatLoop
import Verif.Props.DataHandler

/-!
# Properties of the conversion to single precision

C190: which numbers become zero, how far the others move, and what this means for the zeros of the input data.
-/

namespace Esat

section format
variable (F : Format)

theorem rne_zero_iff (z : ℚ≥0) : Format.rne z = 0 ↔ 2 * z ≤ 1 := by
  have h1 : (⌊z⌋₊ : ℚ≥0) ≤ z := Nat.floor_le zero_le
  have h2 : z < ⌊z⌋₊ + 1 := Nat.lt_floor_add_one z
  by_cases hz : ⌊z⌋₊ = 0
  · unfold Format.rne
    rw [hz]
    simp only [Nat.cast_zero, mul_zero, zero_add]
    split_ifs with a b
    · exact ⟨fun _ => a.le, fun _ => rfl⟩
    · exact ⟨fun h => absurd h (by simp), fun h => absurd b (not_lt.2 h)⟩
    · exact ⟨fun _ => not_lt.1 b, fun _ => rfl⟩
  · have hne : Format.rne z ≠ 0 := by
      unfold Format.rne
      split_ifs <;> omega
    refine ⟨fun h => absurd h hne, fun h => ?_⟩
    have h3 : (1 : ℚ≥0) ≤ ⌊z⌋₊ := by
      have : 1 ≤ ⌊z⌋₊ := by omega
      exact_mod_cast this
    have h4 : (1 : ℚ≥0) ≤ z := h3.trans h1
    have h5 : (2 : ℚ≥0) * 1 ≤ 1 := le_trans (mul_le_mul_right h4 2) h
    norm_num at h5

theorem rne_le_pow (hp : 1 ≤ F.prec) {x : ℚ≥0} : Format.rne (x / F.ulp (Int.log 2 x)) ≤ 2 ^ F.prec := by
  have hxlt : x < 2 ^ (max (Int.log 2 x) F.emin + 1) := by
    have h1 : x < 2 ^ (Int.log 2 x + 1) := by
      have := Int.lt_zpow_succ_log_self (b := 2) (by norm_num) x
      exact_mod_cast this
    exact lt_of_lt_of_le h1 (zpow_le_zpow_right₀ (by norm_num) (by have := le_max_left (Int.log 2 x) F.emin; omega))
  have he : (2 : ℚ≥0) ^ (max (Int.log 2 x) F.emin + 1) = (2 ^ F.prec : ℕ) * F.ulp (Int.log 2 x) := by
    unfold Format.ulp
    push_cast
    rw [← zpow_natCast, ← zpow_add₀ two_ne_zero]
    congr 1
    ring
  rw [← rne_nat (2 ^ F.prec)]
  apply rne_mono
  rw [div_le_iff₀ (ulp_pos F _), ← he]
  exact hxlt.le

/-- Numbers of the format are not changed. -/
theorem nearest_multiple (hp : 1 ≤ F.prec) (e : ℤ) (n : ℕ) (hn : n ≤ 2 ^ F.prec) : F.nearest (n * F.ulp e) = n * F.ulp e := by
  rcases Nat.eq_zero_or_pos n with rfl | hn0
  · simp [Format.nearest, Format.rne]
  set y : ℚ≥0 := n * F.ulp e with hy
  have hy0 : 0 < y := mul_pos (by exact_mod_cast hn0) (ulp_pos F e)
  have hulp : F.ulp e = F.ulp (max e F.emin) := by
    unfold Format.ulp
    rw [max_eq_left (le_max_right e F.emin)]
  rw [nearest_self_iff]
  by_cases hlog : Int.log 2 y ≤ max e F.emin
  · obtain ⟨k, hk⟩ := ulp_dvd F hlog
    refine ⟨n * 2 ^ k, ?_⟩
    calc y = n * F.ulp (max e F.emin) := by rw [hy, hulp]
      _ = _ := by rw [hk]; push_cast; ring
  · rw [not_le] at hlog
    have h1 : (2 : ℚ≥0) ^ (max e F.emin + 1) ≤ y := by
      have := Int.zpow_log_le_self (b := 2) (by norm_num) hy0
      have h2 : (2 : ℚ≥0) ^ Int.log 2 y ≤ y := by exact_mod_cast this
      exact le_trans (zpow_le_zpow_right₀ (by norm_num) (by omega)) h2
    have h3 : (2 : ℚ≥0) ^ (max e F.emin + 1) = (2 ^ F.prec : ℕ) * F.ulp e := by
      unfold Format.ulp
      push_cast
      rw [← zpow_natCast, ← zpow_add₀ two_ne_zero]
      congr 1
      ring
    have h4 : y ≤ 2 ^ (max e F.emin + 1) := by
      rw [h3, hy]
      exact mul_le_mul_left (by exact_mod_cast hn) _
    have h5 : y = 2 ^ (max e F.emin + 1) := le_antisymm h4 h1
    have h6 : Int.log 2 y = max e F.emin + 1 := by
      rw [h5]
      exact_mod_cast Int.log_zpow (R := ℚ≥0) (b := 2) (by norm_num) (max e F.emin + 1)
    refine ⟨2 ^ (F.prec - 1), ?_⟩
    rw [h6]
    unfold Format.ulp
    rw [max_eq_left (by have := le_max_right e F.emin; omega), h5]
    push_cast
    rw [← zpow_natCast, ← zpow_add₀ two_ne_zero]
    congr 1
    rw [Nat.cast_sub hp]
    push_cast
    ring

theorem nearest_idem (hp : 1 ≤ F.prec) (x : ℚ≥0) : F.nearest (F.nearest x) = F.nearest x :=
  nearest_multiple F hp _ _ (rne_le_pow F hp)

theorem nearest_zero_iff (hp : 1 ≤ F.prec) (x : ℚ≥0) : F.nearest x = 0 ↔ x ≤ 2 ^ (F.emin - F.prec) := by
  have hu := ulp_pos F (Int.log 2 x)
  have h1 : F.nearest x = 0 ↔ 2 * x ≤ F.ulp (Int.log 2 x) := by
    unfold Format.nearest
    rw [mul_eq_zero, or_iff_left hu.ne', Nat.cast_eq_zero, rne_zero_iff, ← mul_div_assoc, div_le_one hu]
  rw [h1]
  rcases eq_or_lt_of_le (zero_le (a := x)) with h0 | hx0
  · rw [← h0]
    simp only [mul_zero, zero_le]
  have h2 : (2 : ℚ≥0) * 2 ^ (F.emin - F.prec) = 2 ^ (F.emin - (F.prec - 1)) := by
    rw [← zpow_one_add₀ two_ne_zero]
    congr 1
    ring
  by_cases hl : Int.log 2 x < F.emin
  · have : F.ulp (Int.log 2 x) = 2 * 2 ^ (F.emin - F.prec) := by
      unfold Format.ulp
      rw [max_eq_right hl.le, h2]
    rw [this]
    exact ⟨fun h => le_of_mul_le_mul_left h two_pos, fun h => mul_le_mul_right h 2⟩
  · rw [not_lt] at hl
    have hx : (2 : ℚ≥0) ^ Int.log 2 x ≤ x := by
      have := Int.zpow_log_le_self (b := 2) (by norm_num) hx0
      exact_mod_cast this
    have hp' : (1 : ℤ) ≤ F.prec := by exact_mod_cast hp
    constructor
    · intro h
      exfalso
      have h3 : F.ulp (Int.log 2 x) ≤ 2 ^ Int.log 2 x := by
        unfold Format.ulp
        rw [max_eq_left hl]
        exact zpow_le_zpow_right₀ (by norm_num) (by omega)
      have h4 : 2 * x ≤ x := h.trans (h3.trans hx)
      have h5 : x < 2 * x := by
        rw [two_mul]
        exact lt_add_of_pos_right x hx0
      exact absurd h4 (not_le.2 h5)
    · intro h
      exfalso
      have h3 : (2 : ℚ≥0) ^ (F.emin - F.prec) < 2 ^ Int.log 2 x := zpow_lt_zpow_right₀ (by norm_num) (by omega)
      exact absurd (hx.trans h) (not_le.2 h3)

/-- The rounded number is within half a unit. -/
theorem nearest_near (x : ℚ≥0) : |(F.nearest x : ℚ) - x| ≤ F.ulp (Int.log 2 x) / 2 := by
  have hu := ulp_pos F (Int.log 2 x)
  obtain ⟨r1, r2⟩ := rne_near (x / F.ulp (Int.log 2 x))
  have hxu : x / F.ulp (Int.log 2 x) * F.ulp (Int.log 2 x) = x := div_mul_cancel₀ x hu.ne'
  have hyz : F.nearest x = (Format.rne (x / F.ulp (Int.log 2 x)) : ℚ≥0) * F.ulp (Int.log 2 x) := rfl
  have n1 : 2 * F.nearest x ≤ 2 * x + F.ulp (Int.log 2 x) := by
    have := mul_le_mul_left r1 (F.ulp (Int.log 2 x))
    rw [add_mul, one_mul, mul_assoc, mul_assoc, hxu, ← hyz] at this
    exact this
  have n2 : 2 * x ≤ 2 * F.nearest x + F.ulp (Int.log 2 x) := by
    have := mul_le_mul_left r2 (F.ulp (Int.log 2 x))
    rw [add_mul, one_mul, mul_assoc, mul_assoc, hxu, ← hyz] at this
    exact this
  rw [← NNRat.coe_le_coe] at n1 n2
  push_cast at n1 n2
  rw [abs_le]
  constructor <;> linarith

theorem nearest_error (x : ℚ≥0) :
    |(F.nearest x : ℚ) - x| ≤ max ((x : ℚ) * 2 ^ (-F.prec : ℤ)) (2 ^ (F.emin - F.prec)) := by
  rcases eq_or_lt_of_le (zero_le (a := x)) with h0 | hx0
  · have h1 : F.nearest x = 0 := by
      rw [← h0]
      simp [Format.nearest, Format.rne]
    rw [h1, ← h0]
    simp only [sub_self, abs_zero]
    exact le_trans (zpow_nonneg (by norm_num) _) (le_max_right _ _)
  refine (nearest_near F x).trans ?_
  have hu : (F.ulp (Int.log 2 x) : ℚ) / 2 = 2 ^ (max (Int.log 2 x) F.emin - F.prec) := by
    unfold Format.ulp
    push_cast
    rw [div_eq_iff two_ne_zero, ← zpow_add_one₀ two_ne_zero]
    congr 1
    ring
  rw [hu]
  rcases le_total (Int.log 2 x) F.emin with h | h
  · rw [max_eq_right h]
    exact le_max_right _ _
  · rw [max_eq_left h]
    refine le_trans ?_ (le_max_left _ _)
    have hx : (2 : ℚ≥0) ^ Int.log 2 x ≤ x := by
      have := Int.zpow_log_le_self (b := 2) (by norm_num) hx0
      exact_mod_cast this
    rw [← NNRat.coe_le_coe] at hx
    push_cast at hx
    rw [sub_eq_add_neg, zpow_add₀ two_ne_zero]
    exact mul_le_mul_of_nonneg_right hx (zpow_nonneg (by norm_num) _)

end format

/-! ## C190 -/

section
variable (F : Format)

theorem toRat_nonneg {x : ℚ} (h : 0 ≤ x) : F.toRat x = F.nearest x.toNNRat := if_pos h

theorem nearest_zero : F.nearest 0 = 0 := by simp [Format.nearest, Format.rne]

theorem toRat_neg (x : ℚ) : F.toRat (-x) = -F.toRat x := by
  unfold Format.toRat
  rcases lt_trichotomy x 0 with h | rfl | h
  · rw [if_pos (by linarith), if_neg (by linarith)]
    ring
  · simp [nearest_zero]
  · rw [if_neg (by linarith), if_pos h.le, neg_neg]

theorem toRat_abs (x : ℚ) : F.toRat |x| = |F.toRat x| := by
  have h0 : ∀ y : ℚ, 0 ≤ y → 0 ≤ F.toRat y := by
    intro y hy
    rw [toRat_nonneg F hy]
    exact (F.nearest _).2
  rcases le_total 0 x with h | h
  · rw [abs_of_nonneg h, abs_of_nonneg (h0 x h)]
  · rw [abs_of_nonpos h, toRat_neg, abs_of_nonpos]
    have := h0 (-x) (by linarith)
    rw [toRat_neg] at this
    linarith

theorem toRat_mono_nonneg (hp : 1 ≤ F.prec) {x y : ℚ} (h0 : 0 ≤ x) (h : x ≤ y) : F.toRat x ≤ F.toRat y := by
  rw [toRat_nonneg F h0, toRat_nonneg F (h0.trans h)]
  exact_mod_cast nearest_mono F hp (NNRat.toNNRat_mono h)

theorem toRat_mono (hp : 1 ≤ F.prec) : Monotone F.toRat := by
  intro x y h
  rcases le_total 0 x with h0 | h0
  · exact toRat_mono_nonneg F hp h0 h
  · rcases le_total 0 y with h1 | h1
    · have a := toRat_mono_nonneg F hp le_rfl h1
      have b := toRat_mono_nonneg F hp le_rfl (show (0 : ℚ) ≤ -x by linarith)
      rw [toRat_neg] at b
      have z : F.toRat 0 = 0 := by simp [Format.toRat, nearest_zero]
      rw [z] at a b
      linarith
    · have := toRat_mono_nonneg F hp (show (0 : ℚ) ≤ -y by linarith) (show -y ≤ -x by linarith)
      rw [toRat_neg, toRat_neg] at this
      linarith

theorem toRat_idem (hp : 1 ≤ F.prec) (x : ℚ) : F.toRat (F.toRat x) = F.toRat x := by
  have key : ∀ y : ℚ, 0 ≤ y → F.toRat (F.toRat y) = F.toRat y := by
    intro y hy
    rw [toRat_nonneg F hy, toRat_nonneg F (x := (F.nearest y.toNNRat : ℚ)) (F.nearest _).2, NNRat.toNNRat_coe,
      nearest_idem F hp]
  rcases le_total 0 x with h | h
  · exact key x h
  · have := key (-x) (by linarith)
    rw [toRat_neg, toRat_neg, neg_inj] at this
    exact this

theorem toRat_zero_iff (hp : 1 ≤ F.prec) (x : ℚ) : F.toRat x = 0 ↔ |x| ≤ 2 ^ (F.emin - F.prec) := by
  rw [← abs_eq_zero, ← toRat_abs, toRat_nonneg F (abs_nonneg x), NNRat.coe_eq_zero, nearest_zero_iff F hp,
    ← NNRat.coe_le_coe, Rat.coe_toNNRat _ (abs_nonneg x)]
  push_cast
  exact Iff.rfl

theorem toRat_error (x : ℚ) : |F.toRat x - x| ≤ max (|x| * 2 ^ (-F.prec : ℤ)) (2 ^ (F.emin - F.prec)) := by
  have key : ∀ y : ℚ, 0 ≤ y → |F.toRat y - y| ≤ max (|y| * 2 ^ (-F.prec : ℤ)) (2 ^ (F.emin - F.prec)) := by
    intro y hy
    have := nearest_error F y.toNNRat
    rw [Rat.coe_toNNRat _ hy, ← toRat_nonneg F hy] at this
    rw [abs_of_nonneg (a := y) hy]
    exact this
  rcases le_total 0 x with h | h
  · exact key x h
  · have := key (-x) (by linarith)
    rw [toRat_neg, abs_neg, ← neg_sub', abs_neg] at this
    exact this

theorem rne_half (n : ℕ) (hn : Odd n) (z : ℚ≥0) (hz : 2 * z = 2 * n + 1) : Format.rne z = n + 1 := by
  have hf : ⌊z⌋₊ = n := by
    rw [Nat.floor_eq_iff zero_le]
    constructor
    · rw [← NNRat.coe_le_coe]
      have := congrArg (fun q : ℚ≥0 => (q : ℚ)) hz
      push_cast at this ⊢
      linarith
    · rw [← NNRat.coe_lt_coe]
      have := congrArg (fun q : ℚ≥0 => (q : ℚ)) hz
      push_cast at this ⊢
      linarith
  unfold Format.rne
  rw [hf, hz, if_neg (lt_irrefl _), if_neg (lt_irrefl _), if_neg (by rw [Nat.odd_iff] at hn; omega)]

theorem rnd_none_iff (hp : 1 ≤ F.prec) (he : F.emin ≤ F.emax) (x : ℚ≥0) :
    F.rnd x = none ↔ (2 : ℚ) ^ (F.emax + 1) - 2 ^ (F.emax - F.prec) ≤ x := by
  have h1 : F.rnd x = none ↔ 2 ^ (F.emax + 1) ≤ F.nearest x := by
    unfold Format.rnd
    split_ifs with h
    · exact ⟨fun _ => h, fun _ => rfl⟩
    · exact ⟨fun h' => absurd h' (by simp), fun h' => absurd h' h⟩
  rw [h1]
  obtain ⟨N, hN⟩ : ∃ N : ℕ, 2 ^ F.prec = N + 1 := ⟨2 ^ F.prec - 1, by have := Nat.one_le_two_pow (n := F.prec); omega⟩
  have hNodd : Odd N := by
    obtain ⟨p, hpp⟩ : ∃ p, F.prec = p + 1 := ⟨F.prec - 1, by omega⟩
    rw [hpp, pow_succ] at hN
    exact ⟨2 ^ p - 1, by have := Nat.one_le_two_pow (n := p); omega⟩
  have hN1 : 1 ≤ N := by
    obtain ⟨k, hk⟩ := hNodd
    omega
  have hu : F.ulp F.emax = 2 * 2 ^ (F.emax - F.prec) := by
    unfold Format.ulp
    rw [max_eq_left he, ← zpow_one_add₀ two_ne_zero]
    congr 1
    ring
  have htop : (2 : ℚ≥0) ^ (F.emax + 1) = (N + 1) * F.ulp F.emax := by
    have : (N + 1 : ℚ≥0) = 2 ^ (F.prec : ℤ) := by
      rw [zpow_natCast]
      exact_mod_cast hN.symm
    rw [this, hu, ← zpow_one_add₀ two_ne_zero, ← zpow_add₀ two_ne_zero]
    congr 1
    ring
  set u := F.ulp F.emax with hudef
  have hu0 : 0 < u := ulp_pos F _
  have hhalf : (2 : ℚ) ^ (F.emax - F.prec) = u / 2 := by
    have := congrArg (fun q : ℚ≥0 => (q : ℚ)) hu
    push_cast at this
    linarith
  have htop' : (2 : ℚ) ^ (F.emax + 1) = (N + 1) * u := by
    have := congrArg (fun q : ℚ≥0 => (q : ℚ)) htop
    push_cast at this
    exact this
  rw [htop', hhalf]
  have hu0' : (0 : ℚ) < u := by exact_mod_cast hu0
  have hemax : (2 : ℚ≥0) ^ F.emax ≤ N * u := by
    have e : (2 : ℚ≥0) ^ (F.emax + 1) = 2 * 2 ^ F.emax := by rw [zpow_add_one₀ two_ne_zero, mul_comm]
    have h2 : 2 * (2 : ℚ≥0) ^ F.emax ≤ 2 * (N * u) := by
      rw [← e, htop]
      have h3 : (N + 1 : ℚ≥0) ≤ 2 * N := by exact_mod_cast (by omega : N + 1 ≤ 2 * N)
      calc (N + 1 : ℚ≥0) * u ≤ 2 * N * u := mul_le_mul_left h3 u
        _ = 2 * (N * u) := by ring
    exact le_of_mul_le_mul_left h2 two_pos
  constructor
  · intro h
    by_contra hlt
    rw [not_le] at hlt
    have hx0 : 0 < x := by
      by_contra h0
      rw [not_lt, nonpos_iff_eq_zero] at h0
      rw [h0, nearest_zero] at h
      exact absurd h (not_le.2 (zpow_pos two_pos _))
    have hlog : Int.log 2 x ≤ F.emax := by
      by_contra hc
      have h2 : (2 : ℚ≥0) ^ (F.emax + 1) ≤ x := by
        rw [← Nat.cast_two, Int.zpow_le_iff_le_log (by norm_num) hx0]
        omega
      rw [htop, ← NNRat.coe_le_coe] at h2
      push_cast at h2
      linarith
    rcases hlog.lt_or_eq with hl | hl
    · have h2 : x ≤ 2 ^ F.emax := by
        have := Int.lt_zpow_succ_log_self (b := 2) (by norm_num) x
        have h3 : x < 2 ^ (Int.log 2 x + 1) := by exact_mod_cast this
        exact h3.le.trans (zpow_le_zpow_right₀ (by norm_num) (by omega))
      have h3 := nearest_mono F hp (h2.trans hemax)
      rw [nearest_multiple F hp _ _ (by omega)] at h3
      have h4 := h.trans h3
      rw [htop] at h4
      have h5 : (N : ℚ≥0) * u < (N + 1) * u := mul_lt_mul_of_pos_right (lt_add_one _) hu0
      exact absurd h4 (not_le.2 h5)
    · have h2 : F.nearest x = (Format.rne (x / u) : ℚ≥0) * u := by
        unfold Format.nearest
        rw [hl]
      rw [h2, htop] at h
      have h3 : (N + 1 : ℚ≥0) ≤ Format.rne (x / u) := le_of_mul_le_mul_right h hu0
      have h4 := (rne_near (x / u)).1
      rw [← NNRat.coe_le_coe] at h3 h4
      push_cast at h3 h4
      have h5 : (x : ℚ) / u < N + 1 / 2 := by
        rw [div_lt_iff₀ hu0']
        linarith
      linarith
  · intro h
    set T : ℚ≥0 := N * u + 2 ^ (F.emax - F.prec) with hT
    have hTx : T ≤ x := by
      rw [← NNRat.coe_le_coe, hT]
      push_cast
      rw [hhalf]
      linarith
    refine le_trans ?_ (nearest_mono F hp hTx)
    have hT0 : 0 < T := lt_of_lt_of_le (zpow_pos two_pos F.emax) (hemax.trans (le_add_of_nonneg_right zero_le))
    have hlog : Int.log 2 T = F.emax := by
      apply le_antisymm
      · have h2 : T < 2 ^ (F.emax + 1) := by
          rw [htop, ← NNRat.coe_lt_coe, hT]
          push_cast
          rw [hhalf]
          linarith
        have := (Int.lt_zpow_iff_log_lt (b := 2) (by norm_num) hT0).1 (by exact_mod_cast h2)
        omega
      · exact (Int.zpow_le_iff_le_log (b := 2) (by norm_num) hT0).1
          (by exact_mod_cast hemax.trans (le_add_of_nonneg_right zero_le))
    have h2 : Format.rne (T / u) = N + 1 := by
      apply rne_half N hNodd
      rw [← mul_div_assoc, div_eq_iff hu0.ne', hT, mul_add, ← hu]
      ring
    unfold Format.nearest
    rw [hlog, ← hudef, h2, htop]
    push_cast
    exact le_rfl

end

/-- C190: the conversion keeps the order and the sign and is the identity on its results. -/
theorem C190_rounding : Monotone float32 ∧ (∀ x, float32 (-x) = -float32 x) ∧ ∀ x, float32 (float32 x) = float32 x :=
  ⟨toRat_mono _ (by decide), toRat_neg _, toRat_idem _ (by decide)⟩

/-- C190: exactly the numbers of magnitude at most `2^-150` become zero. -/
theorem C190_zero (x : ℚ) : float32 x = 0 ↔ |x| ≤ 2 ^ (-150 : ℤ) := toRat_zero_iff binary32 (by decide) x

/-- C190: every other number moves by at most the fraction `2^-24` of itself, or by at most `2^-150` if it is below the
normal range. -/
theorem C190_error (x : ℚ) : |float32 x - x| ≤ max (|x| * 2 ^ (-24 : ℤ)) (2 ^ (-150 : ℤ)) := toRat_error binary32 x

/-- C190: the conversion overflows exactly from `2^128 - 2^103` on. -/
theorem C190_overflow (x : ℚ≥0) : binary32.rnd x = none ↔ (2 : ℚ) ^ 128 - 2 ^ 103 ≤ x := by
  exact rnd_none_iff binary32 (by decide) (by decide) x

/-! ## The input data -/

/-- A cell of the table converted. -/
theorem weak_zero_iff (x : ℚ) : float32 (float32 x * 3) = 0 ↔ |x| ≤ 2 ^ (-150 : ℤ) := by
  rw [← C190_zero x, C190_zero]
  constructor
  · intro h
    rw [← C190_rounding.2.2 x, C190_zero]
    rw [abs_mul] at h
    have h3 : |(3 : ℚ)| = 3 := abs_of_pos (by norm_num)
    rw [h3] at h
    have := abs_nonneg (float32 x)
    linarith
  · intro h
    rw [h]
    norm_num

theorem eps_vanishes : float32 (1 / 2 ^ 1022) = 0 := by
  rw [C190_zero, abs_of_pos (by positivity)]
  rw [show (2 : ℚ) ^ (-150 : ℤ) = 1 / 2 ^ 150 by rw [zpow_neg, one_div]; rfl]
  exact one_div_le_one_div_of_le (by positivity) (pow_le_pow_right₀ (by norm_num) (by norm_num))

/-- C190, the data that reach the model: with the conversion to single precision the replacement of zeros by
`sys.float_info.min` has no effect; `get_data` returns a zero in the data (in the uncertainties) exactly if a row that is kept
has a number of magnitude at most `2^-150` in the data (in the uncertainties) of a feature that is used, whatever the
categories. -/
theorem C190_data (parse : String → Option ℚ) (vcols ucols : List String) (hv : vcols.Nodup)
    (rows : List (FRow ℚ × FRow ℚ)) (dropCol locCols : Option (List String))
    (ho : HandlerOk (loadFrames vcols ucols rows dropCol locCols)) (ops : List (Option String × String))
    (hf : ∀ f, lastCat ops f ≠ .strong → IsFeature (loadFrames vcols ucols rows dropCol locCols) f) :
    let h := loadFrames vcols ucols rows dropCol locCols
    let use := fun c : String => decide (c ∉ h.dropCol.getD [] ∧ c ∉ h.locCols.getD [] ∧ lastCat ops c ≠ .bad)
    let kept := fun r : FRow ℚ × FRow ℚ => (∀ c ∈ vcols, use c → (r.1 c).value ≠ none) ∨
      ∀ c ∈ ucols, use c → (r.2 c).value ≠ none
    ∃ V U, getData float32 parse (1 / 2 ^ 1022) (setAll h ops) = some (V, U) ∧
      ((∃ row ∈ V, some 0 ∈ row) ↔
        ∃ r ∈ h.rows, kept r ∧ ∃ c ∈ vcols, use c ∧ ∃ x, (r.1 c).value = some x ∧ |x| ≤ 2 ^ (-150 : ℤ)) ∧
      ((∃ row ∈ U, some 0 ∈ row) ↔
        ∃ r ∈ h.rows, kept r ∧ ∃ c ∈ ucols, use c ∧ ∃ x, (r.2 c).value = some x ∧ |x| ≤ 2 ^ (-150 : ℤ)) := by
  intro h use kept
  refine ⟨_, _, C50_categories float32 C190_rounding.2.2 parse _ vcols ucols hv rows dropCol locCols ho ops hf, ?_⟩
  have hvc : (loadFrames vcols ucols rows dropCol locCols).vcols = vcols := rfl
  have huc : (loadFrames vcols ucols rows dropCol locCols).ucols = ucols := rfl
  have hfix : ∀ x : ℚ, (if x = 0 then float32 (1 / 2 ^ 1022) else x) = x := by
    intro x
    split_ifs with hx
    · rw [eps_vanishes, hx]
    · rfl
  have hkept : ∀ r : FRow ℚ × FRow ℚ,
      (((vcols.filter use).all fun c => ((r.1 c).value.map float32).isSome) ||
        ((ucols.filter use).all fun c => ((r.2 c).value.map fun x =>
          if lastCat ops c = .weak then float32 (float32 x * 3) else float32 x).isSome)) = true ↔ kept r := by
    intro r
    rw [Bool.or_eq_true, List.all_eq_true, List.all_eq_true]
    simp only [Option.isSome_map, List.mem_filter, and_imp, Option.isSome_iff_ne_none, ne_eq]
    exact Iff.rfl
  constructor
  · simp only [specData, hvc, huc, hfix, List.mem_map, exists_exists_and_eq_and, List.mem_filter]
    constructor
    · rintro ⟨r, ⟨hr, hk⟩, c, ⟨hc, hu⟩, hx⟩
      refine ⟨r, hr, (hkept r).1 hk, c, hc, hu, ?_⟩
      rw [Option.map_map, Option.map_eq_some_iff] at hx
      obtain ⟨x, hx1, hx2⟩ := hx
      exact ⟨x, hx1, (C190_zero x).1 hx2⟩
    · rintro ⟨r, hr, hk, c, hc, hu, x, hx1, hx2⟩
      refine ⟨r, ⟨hr, (hkept r).2 hk⟩, c, ⟨hc, hu⟩, ?_⟩
      rw [Option.map_map, Option.map_eq_some_iff]
      exact ⟨x, hx1, (C190_zero x).2 hx2⟩
  · simp only [specData, hvc, huc, hfix, List.mem_map, exists_exists_and_eq_and, List.mem_filter]
    have hcell : ∀ (c : String) (x : ℚ), (if lastCat ops c = .weak then float32 (float32 x * 3) else float32 x) = 0 ↔
        |x| ≤ 2 ^ (-150 : ℤ) := by
      intro c x
      split_ifs
      · exact weak_zero_iff x
      · exact C190_zero x
    constructor
    · rintro ⟨r, ⟨hr, hk⟩, c, ⟨hc, hu⟩, hx⟩
      refine ⟨r, hr, (hkept r).1 hk, c, hc, hu, ?_⟩
      rw [Option.map_map, Option.map_eq_some_iff] at hx
      obtain ⟨x, hx1, hx2⟩ := hx
      exact ⟨x, hx1, (hcell c x).1 hx2⟩
    · rintro ⟨r, hr, hk, c, hc, hu, x, hx1, hx2⟩
      refine ⟨r, ⟨hr, (hkept r).2 hk⟩, c, ⟨hc, hu⟩, ?_⟩
      rw [Option.map_map, Option.map_eq_some_iff]
      exact ⟨x, hx1, (hcell c x).2 hx2⟩

/-- One tenth is not a number of single precision; `1/2^151` becomes zero, `1/2^149` does not. -/
example : float32 (1 / 10) = 13421773 / 134217728 ∧ float32 (1 / 2 ^ 151) = 0 ∧ float32 (-1 / 2 ^ 149) = -1 / 2 ^ 149 := by
  decide +kernel

end Esat
