import Verif.Model.Ieee
import Verif.Model.WsNmf
import Verif.Props.Ieee

/-!
# Accuracy of the ws-nmf update of the profiles in floating point arithmetic (C224)
-/

namespace Esat
open Fl

/-! ## Square roots -/

/-- The square root is accurate on `[lo, hi]`: its square agrees with the argument up to the factor `c ^ 2`. -/
def AccurateSqrt (A : Arith) (c lo hi : ℚ≥0) : Prop := ∀ x, lo ≤ x → x ≤ hi → Rel c 2 x (A.sqrt x ^ 2)

/-- The integer next to the square root of `z`. -/
theorem sqrt_near (z : ℚ≥0) (r : ℕ)
    (hr : r = if 4 * z < (2 * (Nat.sqrt ⌊z⌋₊ : ℚ≥0) + 1) ^ 2 then Nat.sqrt ⌊z⌋₊
      else if ((2 * Nat.sqrt ⌊z⌋₊ + 1 : ℕ) : ℚ≥0) ^ 2 < 4 * z then Nat.sqrt ⌊z⌋₊ + 1
      else if Nat.sqrt ⌊z⌋₊ % 2 = 0 then Nat.sqrt ⌊z⌋₊ else Nat.sqrt ⌊z⌋₊ + 1) :
    4 * z ≤ (2 * r + 1) ^ 2 ∧ (0 < r → (2 * r - 1 : ℚ) ^ 2 ≤ 4 * z) ∧ Nat.sqrt ⌊z⌋₊ ≤ r := by
  have h1 : ((Nat.sqrt ⌊z⌋₊ : ℕ) : ℚ) ^ 2 ≤ z := by
    have := Nat.sqrt_le' ⌊z⌋₊
    have h' : ((Nat.sqrt ⌊z⌋₊ ^ 2 : ℕ) : ℚ≥0) ≤ z := (Nat.cast_le.2 this).trans (Nat.floor_le zero_le)
    rw [← NNRat.coe_le_coe] at h'
    push_cast at h'
    exact h'
  have h2 : (z : ℚ) < ((Nat.sqrt ⌊z⌋₊ : ℕ) + 1 : ℚ) ^ 2 := by
    have h3 : ⌊z⌋₊ + 1 ≤ (Nat.sqrt ⌊z⌋₊ + 1) ^ 2 := Nat.lt_succ_sqrt' ⌊z⌋₊
    have h' : z < ((Nat.sqrt ⌊z⌋₊ + 1) ^ 2 : ℕ) := lt_of_lt_of_le (Nat.lt_floor_add_one z) (by exact_mod_cast h3)
    rw [← NNRat.coe_lt_coe] at h'
    push_cast at h'
    exact h'
  generalize Nat.sqrt ⌊z⌋₊ = f at *
  have hf : (0 : ℚ) ≤ f := Nat.cast_nonneg f
  split_ifs at hr with c1 c2 c3 <;> subst hr <;> simp only [not_lt, ← NNRat.coe_le_coe, ← NNRat.coe_lt_coe] at * <;> push_cast at * <;>
    refine ⟨?_, fun h0 => ?_, by omega⟩ <;> (try have h0' : (1 : ℚ) ≤ f := by exact_mod_cast h0) <;>
    (try have h0' : (1 : ℚ) ≤ r := by exact_mod_cast h0) <;> nlinarith

/-- C224: the square root of a format is the multiple of the unit in the last place of the result that is closest to the exact root. -/
theorem C224_sqrt (F : Format) (x : ℚ≥0) : ∃ r : ℕ, F.sqrtR x = r * F.ulp (Int.log 2 x / 2) ∧
    4 * x ≤ (2 * r + 1) ^ 2 * F.ulp (Int.log 2 x / 2) ^ 2 ∧
    (0 < r → (2 * r - 1 : ℚ) ^ 2 * (F.ulp (Int.log 2 x / 2) : ℚ) ^ 2 ≤ 4 * x) := by
  have hu : F.ulp (Int.log 2 x / 2) ≠ 0 := (zpow_pos two_pos _).ne'
  obtain ⟨h1, h2, -⟩ := sqrt_near (x / F.ulp (Int.log 2 x / 2) ^ 2) _ rfl
  have hz : x / F.ulp (Int.log 2 x / 2) ^ 2 * F.ulp (Int.log 2 x / 2) ^ 2 = x := div_mul_cancel₀ x (pow_ne_zero 2 hu)
  refine ⟨_, rfl, ?_, fun h0 => ?_⟩
  · have := mul_le_mul_left h1 (F.ulp (Int.log 2 x / 2) ^ 2)
    rwa [mul_assoc, hz] at this
  · have h3 := mul_le_mul_of_nonneg_right (h2 h0) (sq_nonneg (F.ulp (Int.log 2 x / 2) : ℚ))
    have hz' : ((x / F.ulp (Int.log 2 x / 2) ^ 2 : ℚ≥0) : ℚ) * (F.ulp (Int.log 2 x / 2) : ℚ) ^ 2 = x := by exact_mod_cast hz
    rw [mul_assoc, hz'] at h3
    exact h3

/-- C224: square roots of a format are accurate up to the factor `2^p / (2^p - 1)` in the normal range. -/
theorem C224_format (F : Format) (hp : 2 ≤ F.prec) (hmin : F.emin ≤ 0) :
    AccurateSqrt F.arith (2 ^ F.prec / (2 ^ F.prec - 1 : ℕ)) (2 ^ F.emin) (2 ^ F.emax) := by
  intro x hlo _
  have hx0 : 0 < x := lt_of_lt_of_le (zpow_pos two_pos _) hlo
  have he : F.emin ≤ Int.log 2 x := by
    rw [← Int.zpow_le_iff_le_log (by norm_num) hx0]
    exact_mod_cast hlo
  have hlog : (2 : ℚ≥0) ^ Int.log 2 x ≤ x := by
    have := Int.zpow_log_le_self (b := 2) (by norm_num) hx0
    exact_mod_cast this
  set e := Int.log 2 x / 2 with hedef
  have he2 : F.emin ≤ e := by omega
  obtain ⟨N, hN⟩ : ∃ N : ℕ, 2 ^ F.prec = 2 * N := ⟨2 ^ (F.prec - 1), by rw [← pow_succ']; congr 1; omega⟩
  have hN2 : 2 ≤ N := by
    have : 4 ≤ 2 ^ F.prec := by
      calc 4 = 2 ^ 2 := rfl
        _ ≤ 2 ^ F.prec := Nat.pow_le_pow_right (by norm_num) hp
    omega
  have hu0 : 0 < F.ulp e := zpow_pos two_pos _
  have huN : (F.ulp e * N) ^ 2 ≤ x := by
    have e1 : (N : ℚ≥0) = 2 ^ ((F.prec : ℤ) - 1) := by
      rw [zpow_sub_one₀ two_ne_zero, zpow_natCast]
      have : (2 : ℚ≥0) ^ F.prec = 2 * N := by exact_mod_cast hN
      rw [this]; field_simp
    have e2 : F.ulp e * N = 2 ^ e := by
      rw [e1, Format.ulp, max_eq_left he2, ← zpow_add₀ two_ne_zero]
      congr 1
      ring
    rw [e2, ← zpow_natCast, ← zpow_mul]
    exact (zpow_le_zpow_right₀ one_le_two (by push_cast; omega)).trans hlog
  have hz : (N : ℚ≥0) ^ 2 ≤ x / F.ulp e ^ 2 := by
    rw [le_div_iff₀ (pow_pos hu0 2), ← mul_pow, mul_comm]
    exact huN
  have hNf : N ≤ Nat.sqrt ⌊x / F.ulp e ^ 2⌋₊ := by
    rw [Nat.le_sqrt', Nat.le_floor_iff zero_le]
    exact_mod_cast hz
  obtain ⟨h1, h2, h3⟩ := sqrt_near (x / F.ulp e ^ 2) _ rfl
  have hs : F.arith.sqrt x = F.sqrtR x := rfl
  have hR : F.sqrtR x = ((if 4 * (x / F.ulp e ^ 2) < (2 * (Nat.sqrt ⌊x / F.ulp e ^ 2⌋₊ : ℚ≥0) + 1) ^ 2 then Nat.sqrt ⌊x / F.ulp e ^ 2⌋₊
      else if ((2 * Nat.sqrt ⌊x / F.ulp e ^ 2⌋₊ + 1 : ℕ) : ℚ≥0) ^ 2 < 4 * (x / F.ulp e ^ 2) then Nat.sqrt ⌊x / F.ulp e ^ 2⌋₊ + 1
      else if Nat.sqrt ⌊x / F.ulp e ^ 2⌋₊ % 2 = 0 then Nat.sqrt ⌊x / F.ulp e ^ 2⌋₊ else Nat.sqrt ⌊x / F.ulp e ^ 2⌋₊ + 1 : ℕ) : ℚ≥0) * F.ulp e := rfl
  rw [hs, hR]
  generalize (if 4 * (x / F.ulp e ^ 2) < (2 * (Nat.sqrt ⌊x / F.ulp e ^ 2⌋₊ : ℚ≥0) + 1) ^ 2 then Nat.sqrt ⌊x / F.ulp e ^ 2⌋₊
      else if ((2 * Nat.sqrt ⌊x / F.ulp e ^ 2⌋₊ + 1 : ℕ) : ℚ≥0) ^ 2 < 4 * (x / F.ulp e ^ 2) then Nat.sqrt ⌊x / F.ulp e ^ 2⌋₊ + 1
      else if Nat.sqrt ⌊x / F.ulp e ^ 2⌋₊ % 2 = 0 then Nat.sqrt ⌊x / F.ulp e ^ 2⌋₊ else Nat.sqrt ⌊x / F.ulp e ^ 2⌋₊ + 1) = r at *
  have hNr : N ≤ r := hNf.trans h3
  have hxz : x = x / F.ulp e ^ 2 * F.ulp e ^ 2 := (div_mul_cancel₀ x (pow_ne_zero 2 hu0.ne')).symm
  generalize x / F.ulp e ^ 2 = z at *
  generalize F.ulp e = u at *
  subst hxz
  have hc : (2 ^ F.prec / (2 ^ F.prec - 1 : ℕ) : ℚ≥0) = (2 * N) / (2 * N - 1 : ℕ) := by
    have e1 : (2 : ℚ≥0) ^ F.prec = 2 * N := by exact_mod_cast hN
    rw [e1, hN]
  rw [hc]
  have hM0 : (0 : ℚ≥0) < (2 * N - 1 : ℕ) := by
    rw [Nat.cast_pos]; omega
  have h2' := h2 (by omega)
  obtain ⟨M, hM⟩ : ∃ M : ℕ, 2 * N - 1 = M := ⟨_, rfl⟩
  have hcast : (M : ℚ) = 2 * N - 1 := by
    have : (2 * N : ℚ) = M + 1 := by exact_mod_cast (by omega : 2 * N = M + 1)
    linarith
  rw [hM] at hM0 ⊢
  have hNq : (2 : ℚ) ≤ N := by exact_mod_cast hN2
  have hNrq : (N : ℚ) ≤ r := by exact_mod_cast hNr
  have hz0 : (0 : ℚ) ≤ z := z.2
  have k1 : z * (M : ℚ≥0) ^ 2 ≤ (r : ℚ≥0) ^ 2 * (2 * N) ^ 2 := by
    rw [← NNRat.coe_le_coe] at h1 ⊢
    push_cast at h1 ⊢
    rw [hcast]
    have a1 : ((2 * r + 1) * (2 * N - 1) : ℚ) ^ 2 ≤ (2 * r * (2 * N)) ^ 2 := by
      apply pow_le_pow_left₀ (mul_nonneg (by linarith) (by linarith))
      nlinarith
    have a2 := mul_le_mul_of_nonneg_right h1 (sq_nonneg (2 * N - 1 : ℚ))
    nlinarith
  have k2 : (r : ℚ≥0) ^ 2 * (M : ℚ≥0) ^ 2 ≤ z * (2 * N) ^ 2 := by
    rw [← NNRat.coe_le_coe]
    push_cast
    rw [hcast]
    have a1 : (2 * r * (2 * N - 1) : ℚ) ^ 2 ≤ ((2 * r - 1) * (2 * N)) ^ 2 := by
      apply pow_le_pow_left₀ (mul_nonneg (by linarith) (by linarith))
      nlinarith
    have a2 := mul_le_mul_of_nonneg_right h2' (sq_nonneg (2 * N : ℚ))
    nlinarith
  constructor
  · rw [div_pow, ← mul_div_assoc, le_div_iff₀ (pow_pos hM0 2), mul_pow]
    calc z * u ^ 2 * (M : ℚ≥0) ^ 2 = z * (M : ℚ≥0) ^ 2 * u ^ 2 := by ring
      _ ≤ (r : ℚ≥0) ^ 2 * (2 * N) ^ 2 * u ^ 2 := mul_le_mul_left k1 _
      _ = _ := by ring
  · rw [div_pow, ← mul_div_assoc, le_div_iff₀ (pow_pos hM0 2), mul_pow]
    calc (r : ℚ≥0) ^ 2 * u ^ 2 * (M : ℚ≥0) ^ 2 = (r : ℚ≥0) ^ 2 * (M : ℚ≥0) ^ 2 * u ^ 2 := by ring
      _ ≤ z * (2 * N) ^ 2 * u ^ 2 := mul_le_mul_left k2 _
      _ = _ := by ring

/-- C224: double precision. -/
theorem C224_binary64 : Accurate binary64.arith (2 ^ 53 / (2 ^ 53 - 1 : ℕ)) (2 ^ (-1022 : ℤ)) (2 ^ (1023 : ℤ)) ∧
    AccurateSqrt binary64.arith (2 ^ 53 / (2 ^ 53 - 1 : ℕ)) (2 ^ (-1022 : ℤ)) (2 ^ (1023 : ℤ)) :=
  ⟨C145_format binary64 (by decide), C224_format binary64 (by decide) (by decide)⟩

/-! ## The update -/

section update
variable {A : Arith} {c lo hi : ℚ≥0} {P : ℕ} {m k : ℕ}

/-- The exact linear part `Σᵢ vᵢ·xᵢₐ`. -/
def wsLinX (v : Fin m → ℚ≥0) (x : Mat m k ℚ≥0) (a : Fin k) : ℚ≥0 := ∑ i, v i * x i a

/-- The exact matrix `Σᵢ xᵢᵦ·weᵢ·xᵢₐ`. -/
def wsGram (we : Fin m → ℚ≥0) (x : Mat m k ℚ≥0) (b a : Fin k) : ℚ≥0 := ∑ i, x i b * we i * x i a

/-- The exact quadratic part. -/
def wsQuadX (we : Fin m → ℚ≥0) (x : Mat m k ℚ≥0) (h : Fin k → ℚ≥0) (a : Fin k) : ℚ≥0 := ∑ b, h b * wsGram we x b a

/-- Every number computed from one part of W is zero or stays in the accurate range after `P` roundings. -/
structure InRangePart (c lo hi : ℚ≥0) (P : ℕ) (v we : Fin m → ℚ≥0) (x : Mat m k ℚ≥0) (h : Fin k → ℚ≥0) : Prop where
  scaled : ∀ i a, Low c lo P (x i a * we i) ∧ High c hi P (x i a * we i)
  gramT : ∀ i b a, Low c lo P (x i b * we i * x i a)
  gram : ∀ b a, High c hi P (wsGram we x b a)
  linT : ∀ i a, Low c lo P (v i * x i a)
  lin : ∀ a, High c hi P (wsLinX v x a)
  quadT : ∀ b a, Low c lo P (h b * wsGram we x b a)
  quad : ∀ a, High c hi P (wsQuadX we x h a)

theorem low_add {x y : ℚ≥0} (hx : Low c lo P x) (hy : Low c lo P y) : Low c lo P (x + y) := by
  rcases hx with rfl | hx
  · rwa [zero_add]
  · exact .inr (hx.trans (le_add_of_nonneg_right zero_le))

theorem add_rel (hA : Accurate A c lo hi) {p : ℕ} {x y x' y' : ℚ≥0} (h : Rel c p x x') (h' : Rel c p y y')
    (hl : Low c lo P (x + y)) (hh : High c hi P (x + y)) (hp : p ≤ P) :
    ∃ z, A.add (fin false x') (fin false y') = fin false z ∧ Rel c (p + 1) (x + y) z := by
  simpa [Arith.add] using round_rel hA hp (rel_add h h') hl hh false

/-- The product of a part of W with the diagonal and with itself. -/
theorem gram_rel (hA : Accurate A c lo hi) {d p : ℕ} {v we : Fin m → ℚ≥0} {x x' : Mat m k ℚ≥0} {h : Fin k → ℚ≥0}
    (hx : ∀ i a, Rel c p (x i a) (x' i a)) (hr : InRangePart c lo hi P v we x h) (hP : 2 * p + 2 * d ≤ P) {G : Mat k k Fl}
    (hG : A.WsProd d (fun i => fin false (we i)) (fun i a => fin false (x' i a)) G) (b a : Fin k) :
    ∃ z, G b a = fin false z ∧ Rel c (2 * p + 2 * d) (wsGram we x b a) z := by
  obtain ⟨T, h1, h2⟩ := hG
  have c1 := hA.one_le
  have hT : ∀ i, ∃ z, T b i = fin false z ∧ Rel c (p + d) (x i b * we i) z := fun i => by
    obtain ⟨d', hd', hdot⟩ := h1 b i
    have hsum : ∑ i', x i' b * (if i' = i then we i' else 0) = x i b * we i := by
      simp
    obtain ⟨z, e, r⟩ := dot_rel (P := P) (t := fun i' => x i' b * (if i' = i then we i' else 0)) hA (a := fun i' => x' i' b)
      (b := fun i' => if i' = i then we i' else 0) (p := p) (fun _ => rfl)
      (fun i' => by simp only [Arith.diagF]; split_ifs <;> rfl)
      (fun i' => by simpa using rel_mul (hx i' b) (rel_refl c1 0 (if i' = i then we i' else 0)))
      (fun i' => by
        split_ifs with hi'
        · exact (hr.scaled i' b).1
        · exact .inl (mul_zero _))
      hdot (by rw [hsum]; exact (hr.scaled i b).2) (by omega)
    rw [hsum] at r
    exact ⟨z, e, rel_mono c1 (by omega) r⟩
  choose t et rt using hT
  obtain ⟨d', hd', hdot⟩ := h2 b a
  obtain ⟨z, e, r⟩ := dot_rel (P := P) (t := fun i => x i b * we i * x i a) hA et (fun _ => rfl) (fun i => rel_mul (rt i) (hx i a))
    (fun i => hr.gramT i b a) hdot (hr.gram b a) (by omega)
  exact ⟨z, e, rel_mono c1 (by omega) r⟩

/-- The positive part of a signed entry. -/
def posPart (sg : Fin m → Fin k → Bool) (w : Mat m k ℚ≥0) : Mat m k ℚ≥0 := fun i a => if sg i a then 0 else w i a

/-- The negative part of a signed entry. -/
def negPart (sg : Fin m → Fin k → Bool) (w : Mat m k ℚ≥0) : Mat m k ℚ≥0 := fun i a => if sg i a then w i a else 0

theorem half_rel (hA : Accurate A c lo hi) {w : ℚ≥0} (hl : Low c lo P w) (hh : High c hi P (2 * w)) (hP : 1 ≤ P) :
    ∃ z, A.div (A.add (fin false w) (fin false w)) (fin false 2) = fin false z ∧ Rel c 2 w z := by
  have c1 := hA.one_le
  obtain ⟨s, es, rs⟩ := add_rel (P := P) hA (rel_refl c1 0 w) (rel_refl c1 0 w) (low_add hl hl) (by rwa [← two_mul]) (by omega)
  rw [es]
  have e2 : (w + w) / 2 = w := by rw [← two_mul, mul_div_cancel_left₀ _ two_ne_zero]
  obtain ⟨z, ez, rz⟩ := div_rel (P := P) hA rs (rel_refl c1 0 2) two_ne_zero (by rwa [e2])
    (by rw [e2]; exact high_mono (le_mul_of_one_le_left zero_le one_le_two) hh) (by omega)
  rw [e2] at rz
  exact ⟨z, ez, rel_mono c1 (by omega) rz⟩

theorem half_zero {w : ℚ≥0} : A.div (A.add (fin false w) (fin true w)) (fin false 2) = fin false 0 := by
  simp [Arith.add, Arith.div, Arith.round, A.rnd_zero]

theorem parts_rel (hA : Accurate A c lo hi) {sg : Fin m → Fin k → Bool} {w : Mat m k ℚ≥0} (hl : ∀ i a, Low c lo P (w i a))
    (hh : ∀ i a, High c hi P (2 * w i a)) (hP : 1 ≤ P) :
    ∃ wp wn : Mat m k ℚ≥0, A.wPos (fun i a => fin (sg i a) (w i a)) = (fun i a => fin false (wp i a)) ∧
      A.wNeg (fun i a => fin (sg i a) (w i a)) = (fun i a => fin false (wn i a)) ∧
      (∀ i a, Rel c 2 (posPart sg w i a) (wp i a)) ∧ ∀ i a, Rel c 2 (negPart sg w i a) (wn i a) := by
  have c1 := hA.one_le
  have hp : ∀ i a, ∃ z, A.wPos (fun i a => fin (sg i a) (w i a)) i a = fin false z ∧ Rel c 2 (posPart sg w i a) z := fun i a => by
    unfold Arith.wPos posPart
    dsimp only
    cases sg i a with
    | true => exact ⟨0, half_zero, by simpa using rel_refl c1 2 0⟩
    | false => simpa [Fl.abs] using half_rel hA (hl i a) (hh i a) hP
  have hn : ∀ i a, ∃ z, A.wNeg (fun i a => fin (sg i a) (w i a)) i a = fin false z ∧ Rel c 2 (negPart sg w i a) z := fun i a => by
    unfold Arith.wNeg negPart
    dsimp only
    cases sg i a with
    | false => exact ⟨0, half_zero, by simpa using rel_refl c1 2 0⟩
    | true => simpa [Fl.abs, Arith.sub, Fl.neg] using half_rel hA (hl i a) (hh i a) hP
  choose wp ep rp using hp
  choose wn en rn using hn
  exact ⟨wp, wn, funext fun i => funext fun a => ep i a, funext fun i => funext fun a => en i a, rp, rn⟩

/-- The exact numerator of entry `a`. -/
def wsNumX (v we : Fin m → ℚ≥0) (sg : Fin m → Fin k → Bool) (w : Mat m k ℚ≥0) (h : Fin k → ℚ≥0) (eps : ℚ≥0) (a : Fin k) : ℚ≥0 :=
  wsLinX v (posPart sg w) a + wsQuadX we (negPart sg w) h a + eps

/-- The exact denominator of entry `a`. -/
def wsDenX (v we : Fin m → ℚ≥0) (sg : Fin m → Fin k → Bool) (w : Mat m k ℚ≥0) (h : Fin k → ℚ≥0) (eps : ℚ≥0) (a : Fin k) : ℚ≥0 :=
  wsLinX v (negPart sg w) a + wsQuadX we (posPart sg w) h a + eps

/-- Every number of the exact update is zero or stays in the accurate range after `P` roundings; `v` is the column of `We * V`. -/
structure InRangeWs (c lo hi : ℚ≥0) (P : ℕ) (v we : Fin m → ℚ≥0) (sg : Fin m → Fin k → Bool) (w : Mat m k ℚ≥0) (h : Fin k → ℚ≥0) (eps : ℚ≥0) :
    Prop where
  pos : InRangePart c lo hi P v we (posPart sg w) h
  neg : InRangePart c lo hi P v we (negPart sg w) h
  vR : ∀ i, Low c lo P (v i) ∧ High c hi P (v i)
  wR : ∀ i a, Low c lo P (w i a) ∧ High c hi P (2 * w i a)
  epsR : lo * c ^ P ≤ eps
  eps0 : 0 < eps
  num : ∀ a, High c hi P (wsNumX v we sg w h eps a)
  den : ∀ a, High c hi P (wsDenX v we sg w h eps a)
  quot : ∀ a, lo * c ^ P ≤ wsNumX v we sg w h eps a / wsDenX v we sg w h eps a ∧ High c hi P (wsNumX v we sg w h eps a / wsDenX v we sg w h eps a)
  res : ∀ a, h a = 0 ∨ lo ^ 2 * c ^ P ≤ h a ^ 2 * (wsNumX v we sg w h eps a / wsDenX v we sg w h eps a) ∧
    h a ^ 2 * (wsNumX v we sg w h eps a / wsDenX v we sg w h eps a) * c ^ P ≤ hi ^ 2

theorem lin_rel (hA : Accurate A c lo hi) {d : ℕ} {v v' we : Fin m → ℚ≥0} {x x' : Mat m k ℚ≥0} {h : Fin k → ℚ≥0} (hv : ∀ i, Rel c 1 (v i) (v' i))
    (hx : ∀ i a, Rel c 2 (x i a) (x' i a)) (hr : InRangePart c lo hi P v we x h) (a : Fin k) (hP : d + 3 ≤ P) {d' : ℕ} (hd : d' ≤ d) {s : Fl}
    (hdot : A.Dot (fun i => fin false (v' i)) (fun i => fin false (x' i a)) d' Finset.univ s) :
    ∃ z, s = fin false z ∧ Rel c (d + 3) (wsLinX v x a) z := by
  obtain ⟨z, e, r⟩ := dot_rel (P := P) (t := fun i => v i * x i a) hA (fun _ => rfl) (fun _ => rfl) (fun i => rel_mul (hv i) (hx i a))
    (fun i => hr.linT i a) hdot (hr.lin a) (by omega)
  exact ⟨z, e, rel_mono hA.one_le (by omega) r⟩

theorem quad_rel (hA : Accurate A c lo hi) {d : ℕ} {v we : Fin m → ℚ≥0} {x x' : Mat m k ℚ≥0} {h : Fin k → ℚ≥0}
    (hx : ∀ i a, Rel c 2 (x i a) (x' i a)) (hr : InRangePart c lo hi P v we x h) (hP : 3 * d + 4 ≤ P) {G : Mat k k Fl}
    (hG : A.WsProd d (fun i => fin false (we i)) (fun i a => fin false (x' i a)) G) (a : Fin k) {d' : ℕ} (hd : d' ≤ d) {s : Fl}
    (hdot : A.Dot (fun b => fin false (h b)) (fun b => G b a) d' Finset.univ s) :
    ∃ z, s = fin false z ∧ Rel c (3 * d + 4) (wsQuadX we x h a) z := by
  have c1 := hA.one_le
  choose g eg rg using fun b => gram_rel hA hx hr (by omega) hG b a
  obtain ⟨z, e, r⟩ := dot_rel (P := P) (t := fun b => h b * wsGram we x b a) hA (fun _ => rfl) eg (fun b => rel_mul (rel_refl c1 0 (h b)) (rg b))
    (fun b => hr.quadT b a) hdot (hr.quad a) (by omega)
  exact ⟨z, e, rel_mono c1 (by omega) r⟩

theorem rel_sq {p : ℕ} {x y : ℚ≥0} (h : Rel c p x y) : Rel c (2 * p) (x ^ 2) (y ^ 2) := by
  have := rel_mul h h
  rwa [← sq, ← sq, ← two_mul] at this

/-- C224: let rounding and square root be accurate up to the factor `c` on `[lo, hi]`, and let the numbers of the exact update stay in this range up to the
accumulated roundings. Then, for every order of summation with at most `d` roundings per term and for contributions of any sign, the ws-nmf update of a column
of H is finite, and its square agrees with the exact one `h² · (n1 + n2 + eps) / (d1 + d2 + eps)` up to the factor `c ^ (6d + 17)`. -/
theorem C224_accuracy (hA : Accurate A c lo hi) (hS : AccurateSqrt A c lo hi) {d : ℕ} {v we : Fin m → ℚ≥0} {sg : Fin m → Fin k → Bool}
    {w : Mat m k ℚ≥0} {h : Fin k → ℚ≥0} {eps : ℚ≥0} (hr : InRangeWs c lo hi (6 * d + 17) (fun i => we i * v i) we sg w h eps)
    {Pp Nn : Mat k k Fl} {h' : Fin k → Fl}
    (hPp : A.WsProd d (fun i => fin false (we i)) (A.wPos fun i a => fin (sg i a) (w i a)) Pp)
    (hNn : A.WsProd d (fun i => fin false (we i)) (A.wNeg fun i a => fin (sg i a) (w i a)) Nn)
    (hstep : A.WsColumn d eps (fun i a => fin (sg i a) (w i a)) (fun i => A.mul (fin false (we i)) (fin false (v i))) Pp Nn
      (fun a => fin false (h a)) h') (a : Fin k) :
    ∃ z, h' a = fin false z ∧
      Rel c (6 * d + 17) (h a ^ 2 * (wsNumX (fun i => we i * v i) we sg w h eps a / wsDenX (fun i => we i * v i) we sg w h eps a)) (z ^ 2) := by
  have c1 := hA.one_le
  have hcP : (0 : ℚ≥0) < c ^ (6 * d + 17) := pow_pos (lt_of_lt_of_le one_pos c1) _
  obtain ⟨wp, wn, ep, en, rp, rn⟩ := parts_rel (P := 6 * d + 17) (sg := sg) hA (fun i a => (hr.wR i a).1) (fun i a => (hr.wR i a).2) (by omega)
  obtain ⟨n1, d1, n2, d2, h1, h2, h3, h4, h5⟩ := hstep
  rw [ep] at hPp h1
  rw [en] at hNn h2
  choose v' ev rv using fun i => mul_rel (P := 6 * d + 17) hA (rel_refl c1 0 (we i)) (rel_refl c1 0 (v i)) (hr.vR i).1 (hr.vR i).2 (by omega)
  simp only [ev] at h1 h2
  obtain ⟨e1, he1, hd1⟩ := h1 a
  obtain ⟨e2, he2, hd2⟩ := h2 a
  obtain ⟨e3, he3, hd3⟩ := h3 a
  obtain ⟨e4, he4, hd4⟩ := h4 a
  obtain ⟨x1, ex1, rx1⟩ := lin_rel hA (fun i => by simpa using rv i) rp hr.pos a (by omega) he1 hd1
  obtain ⟨x2, ex2, rx2⟩ := lin_rel hA (fun i => by simpa using rv i) rn hr.neg a (by omega) he2 hd2
  obtain ⟨x3, ex3, rx3⟩ := quad_rel hA rn hr.neg (by omega) hNn a he3 hd3
  obtain ⟨x4, ex4, rx4⟩ := quad_rel hA rp hr.pos (by omega) hPp a he4 hd4
  have lowSum : ∀ {x y : Mat m k ℚ≥0}, InRangePart c lo hi (6 * d + 17) (fun i => we i * v i) we x h →
      InRangePart c lo hi (6 * d + 17) (fun i => we i * v i) we y h →
      Low c lo (6 * d + 17) (wsLinX (fun i => we i * v i) x a + wsQuadX we y h a) := fun hx hy =>
    low_add (low_sum _ fun i _ => hx.linT i a) (low_sum _ fun b _ => hy.quadT b a)
  have lowEps : ∀ x : ℚ≥0, Low c lo (6 * d + 17) (x + eps) := fun x => .inr (hr.epsR.trans (le_add_of_nonneg_left zero_le))
  -- numerator
  obtain ⟨s1, es1, rs1⟩ := add_rel (P := 6 * d + 17) hA (rel_mono c1 (by omega : d + 3 ≤ 3 * d + 4) rx1) rx3 (lowSum hr.pos hr.neg)
    (high_mono (le_add_of_nonneg_right zero_le) (hr.num a)) (by omega)
  obtain ⟨nu, enu, rnu⟩ := add_rel (P := 6 * d + 17) hA rs1 (rel_refl c1 _ eps) (lowEps _) (hr.num a) (by omega)
  -- denominator
  obtain ⟨s2, es2, rs2⟩ := add_rel (P := 6 * d + 17) hA (rel_mono c1 (by omega : d + 3 ≤ 3 * d + 4) rx2) rx4 (lowSum hr.neg hr.pos)
    (high_mono (le_add_of_nonneg_right zero_le) (hr.den a)) (by omega)
  obtain ⟨de, ede, rde⟩ := add_rel (P := 6 * d + 17) hA rs2 (rel_refl c1 _ eps) (lowEps _) (hr.den a) (by omega)
  have hden0 : wsDenX (fun i => we i * v i) we sg w h eps a ≠ 0 :=
    (lt_of_lt_of_le hr.eps0 (le_add_of_nonneg_left zero_le)).ne'
  have hnum0 : 0 < wsNumX (fun i => we i * v i) we sg w h eps a := lt_of_lt_of_le hr.eps0 (le_add_of_nonneg_left zero_le)
  obtain ⟨q, eq, rq⟩ := div_rel (P := 6 * d + 17) hA rnu rde hden0 (.inr (hr.quot a).1) (hr.quot a).2 (by omega)
  have hx0 : 0 < wsNumX (fun i => we i * v i) we sg w h eps a / wsDenX (fun i => we i * v i) we sg w h eps a :=
    div_pos hnum0 (pos_iff_ne_zero.2 hden0)
  have hres := hr.res a
  have hquot := hr.quot a
  have hx : wsLinX (fun i => we i * v i) (posPart sg w) a + wsQuadX we (negPart sg w) h a + eps = wsNumX (fun i => we i * v i) we sg w h eps a := rfl
  have hy : wsLinX (fun i => we i * v i) (negPart sg w) a + wsQuadX we (posPart sg w) h a + eps = wsDenX (fun i => we i * v i) we sg w h eps a := rfl
  rw [hx, hy] at rq
  generalize wsNumX (fun i => we i * v i) we sg w h eps a / wsDenX (fun i => we i * v i) we sg w h eps a = x at rq hx0 hres hquot ⊢
  -- square root
  have hpw : c ^ (3 * d + 4 + 1 + 1 + (3 * d + 4 + 1 + 1) + 1) ≤ c ^ (6 * d + 17) := pow_le_pow_right₀ c1 (by omega)
  have hq1 : lo ≤ q := by
    have : lo * c ^ (6 * d + 17) ≤ q * c ^ (6 * d + 17) := hquot.1.trans (rq.1.trans (mul_le_mul_right hpw _))
    exact le_of_mul_le_mul_right this hcP
  have hq2 : q ≤ hi := rq.2.trans ((mul_le_mul_right hpw _).trans hquot.2)
  have hq0 : q ≠ 0 := (rel_inv hx0.ne' rq).1
  have rsq := rel_trans rq (hS q hq1 hq2)
  have esq : A.sqrtF (fin false q) = fin false (A.sqrt q) := by simp [Arith.sqrtF, hq0]
  have rhs : Rel c (6 * d + 15) (h a ^ 2 * x) ((h a * A.sqrt q) ^ 2) := by
    rw [mul_pow]
    exact rel_mono c1 (by omega) (rel_mul (rel_refl c1 0 _) rsq)
  rw [h5, ex1, ex3, es1, enu, ex2, ex4, es2, ede, eq, esq]
  have hmul : A.mul (fin false (h a)) (fin false (A.sqrt q)) = A.round false (h a * A.sqrt q) := by simp [Arith.mul, Arith.mulWith]
  rw [hmul]
  rcases hres with h0 | ⟨hr1, hr2⟩
  · rw [h0]
    refine ⟨0, by simp [Arith.round, A.rnd_zero], ?_⟩
    simpa using rel_refl c1 _ 0
  · have hpw2 : c ^ (6 * d + 15) ≤ c ^ (6 * d + 17) := pow_le_pow_right₀ c1 (by omega)
    have hl1 : lo ≤ h a * A.sqrt q := by
      have : lo ^ 2 * c ^ (6 * d + 17) ≤ (h a * A.sqrt q) ^ 2 * c ^ (6 * d + 17) := hr1.trans (rhs.1.trans (mul_le_mul_right hpw2 _))
      exact (pow_le_pow_iff_left₀ zero_le zero_le two_ne_zero).1 (le_of_mul_le_mul_right this hcP)
    have hh1 : h a * A.sqrt q ≤ hi :=
      (pow_le_pow_iff_left₀ zero_le zero_le two_ne_zero).1 (rhs.2.trans ((mul_le_mul_right hpw2 _).trans hr2))
    obtain ⟨z, ez, r1, r2⟩ := hA.rnd _ hl1 hh1
    have rz : Rel c 1 (h a * A.sqrt q) z := ⟨by simpa using r1, by simpa using r2⟩
    have rfin := rel_trans rhs (rel_sq rz)
    exact ⟨z, by simp [Arith.round, ez], rfin⟩

/-- C224: the exact update in the theorem is the one of the exact model (`wsStepH`), for any signs of W: it exists, its entries are not negative, and
their squares are `h² · (n1 + n2 + eps) / (d1 + d2 + eps)`. -/
theorem C224_exact {n : ℕ} (v we : Mat m n ℚ≥0) (sg : Fin m → Fin k → Bool) (w : Mat m k ℚ≥0) (h : Mat k n ℚ≥0) :
    ∃ H' : Mat k n ℝ, wsStepH (fun i j => (v i j : ℝ)) (fun i j => (we i j : ℝ)) (fun i a => if sg i a then -(w i a : ℝ) else (w i a : ℝ))
        (fun a j => (h a j : ℝ)) = some H' ∧
      ∀ a j, 0 ≤ H' a j ∧ H' a j ^ 2 = ((h a j ^ 2 * (wsNumX (fun i => we i j * v i j) (fun i => we i j) sg w (fun a => h a j) (1 / 10 ^ 12) a /
        wsDenX (fun i => we i j * v i j) (fun i => we i j) sg w (fun a => h a j) (1 / 10 ^ 12) a) : ℚ≥0) : ℝ) := by
  have hw0 : ∀ i a, (0 : ℝ) ≤ (w i a : ℝ) := fun i a => NNRat.cast_nonneg _
  have hpos : wsPos (fun i a => if sg i a then -(w i a : ℝ) else (w i a : ℝ)) = fun i a => (posPart sg w i a : ℝ) := by
    funext i a
    unfold wsPos posPart
    dsimp only
    cases sg i a
    · simp [abs_of_nonneg (hw0 i a)]
    · simp [abs_of_nonneg (hw0 i a)]
  have hneg : wsNeg (fun i a => if sg i a then -(w i a : ℝ) else (w i a : ℝ)) = fun i a => (negPart sg w i a : ℝ) := by
    funext i a
    unfold wsNeg negPart
    dsimp only
    cases sg i a
    · simp [abs_of_nonneg (hw0 i a)]
    · simp [abs_of_nonneg (hw0 i a)]
  have hnum : ∀ a j, wsNum (fun i j => (v i j : ℝ)) (fun i j => (we i j : ℝ)) (fun i a => if sg i a then -(w i a : ℝ) else (w i a : ℝ))
        (fun a j => (h a j : ℝ)) a j =
      (wsNumX (fun i => we i j * v i j) (fun i => we i j) sg w (fun a => h a j) (1 / 10 ^ 12) a : ℝ) := fun a j => by
    unfold wsNum
    rw [hpos, hneg]
    simp [wsNumX, wsLinX, wsQuadX, wsGram, wsLin, wsQuad, wsEps, NNRat.cast_sum]
    norm_num
  have hden : ∀ a j, wsDen (fun i j => (v i j : ℝ)) (fun i j => (we i j : ℝ)) (fun i a => if sg i a then -(w i a : ℝ) else (w i a : ℝ))
        (fun a j => (h a j : ℝ)) a j =
      (wsDenX (fun i => we i j * v i j) (fun i => we i j) sg w (fun a => h a j) (1 / 10 ^ 12) a : ℝ) := fun a j => by
    unfold wsDen
    rw [hpos, hneg]
    simp [wsDenX, wsLinX, wsQuadX, wsGram, wsLin, wsQuad, wsEps, NNRat.cast_sum]
    norm_num
  have hd0 : ∀ a j, wsDenX (fun i => we i j * v i j) (fun i => we i j) sg w (fun a => h a j) (1 / 10 ^ 12) a ≠ 0 := fun a j =>
    (lt_of_lt_of_le (by positivity) (le_add_of_nonneg_left zero_le)).ne'
  have hq : ∀ a j, (0 : ℝ) ≤ (wsNumX (fun i => we i j * v i j) (fun i => we i j) sg w (fun a => h a j) (1 / 10 ^ 12) a : ℝ) /
      (wsDenX (fun i => we i j * v i j) (fun i => we i j) sg w (fun a => h a j) (1 / 10 ^ 12) a : ℝ) := fun a j =>
    div_nonneg (NNRat.cast_nonneg _) (NNRat.cast_nonneg _)
  refine ⟨_, if_pos fun a j => ?_, fun a j => ?_⟩
  · rw [hnum, hden]
    exact ⟨NNRat.cast_ne_zero.2 (hd0 a j), hq a j⟩
  · rw [hnum, hden]
    refine ⟨mul_nonneg (NNRat.cast_nonneg _) (Real.sqrt_nonneg _), ?_⟩
    rw [mul_pow, Real.sq_sqrt (hq a j)]
    push_cast
    rfl

end update

/-! ## The hypotheses can be met -/

/-- Single precision, two samples, two factors, a negative contribution and a zero: the range conditions hold. -/
example :
    let v : Fin 2 → ℚ≥0 := ![6, 5]
    let we : Fin 2 → ℚ≥0 := ![1, 1 / 4]
    let sg : Fin 2 → Fin 2 → Bool := ![![false, true], ![false, false]]
    let w : Mat 2 2 ℚ≥0 := ![![1, 2], ![3, 0]]
    let h : Fin 2 → ℚ≥0 := ![1 / 2, 5]
    InRangeWs (16777216 / 16777215) (2 ^ (-126 : ℤ)) (2 ^ (127 : ℤ)) (6 * 2 + 17) (fun i => we i * v i) we sg w h (1 / 10 ^ 12) ∧
      wsDenX (fun i => we i * v i) we sg w h (1 / 10 ^ 12) 1 ≠ wsNumX (fun i => we i * v i) we sg w h (1 / 10 ^ 12) 1 := by
  refine ⟨⟨⟨?_, ?_, ?_, ?_, ?_, ?_, ?_⟩, ⟨?_, ?_, ?_, ?_, ?_, ?_, ?_⟩, ?_, ?_, ?_, ?_, ?_, ?_, ?_, ?_⟩, ?_⟩ <;>
    (try unfold Low) <;> (try unfold High) <;> decide +kernel

end Esat
