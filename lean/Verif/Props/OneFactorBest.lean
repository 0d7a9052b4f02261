import Verif.Props.LongRun
import Mathlib.Algebra.QuadraticDiscriminant
import Mathlib.Topology.Order.Compact
import Mathlib.Algebra.Order.Ring.Pow

/-!
# C261: one factor and uncertainties of product form

If the uncertainties are products of a number of the sample and a number of the feature (for instance all equal), an ls-nmf run with one factor is a power iteration, and its loss tends to the smallest one of all models with one
factor, negative ones included.
-/

namespace Esat
open Filter Topology

section power
variable {m n : ℕ}

/-! ## Weighted products -/

/-- Product of two profiles, weighted with `q`. -/
def ipQ (q : Fin n → ℝ) (x y : Fin n → ℝ) : ℝ := ∑ j, q j * (x j * y j)

/-- Products of the samples with a profile. -/
def imgQ (q : Fin n → ℝ) (V : Mat m n ℝ) (x : Fin n → ℝ) (i : Fin m) : ℝ := ∑ j, q j * (V i j * x j)

/-- Product of the products of the samples with two profiles. -/
def formQ (p : Fin m → ℝ) (q : Fin n → ℝ) (V : Mat m n ℝ) (x y : Fin n → ℝ) : ℝ := ∑ i, p i * (imgQ q V x i * imgQ q V y i)

/-- One step of the power iteration. -/
def powQ (p : Fin m → ℝ) (q : Fin n → ℝ) (V : Mat m n ℝ) (x : Fin n → ℝ) (j : Fin n) : ℝ := ∑ i, p i * (V i j * imgQ q V x i)

theorem ip_pow (p : Fin m → ℝ) (q : Fin n → ℝ) (V : Mat m n ℝ) (x y : Fin n → ℝ) : ipQ q (powQ p q V x) y = formQ p q V x y := by
  have e1 : ipQ q (powQ p q V x) y = ∑ j, ∑ i, p i * imgQ q V x i * (q j * (V i j * y j)) := by
    unfold ipQ powQ
    refine Finset.sum_congr rfl fun j _ => ?_
    rw [Finset.sum_mul, Finset.mul_sum]
    exact Finset.sum_congr rfl fun i _ => by ring
  rw [e1, Finset.sum_comm]
  unfold formQ
  refine Finset.sum_congr rfl fun i _ => ?_
  rw [← Finset.mul_sum, show ∑ j, q j * (V i j * y j) = imgQ q V y i from rfl]
  ring

theorem img_add (q : Fin n → ℝ) (V : Mat m n ℝ) (x y : Fin n → ℝ) (t : ℝ) (i : Fin m) : imgQ q V (fun j => x j + t * y j) i = imgQ q V x i + t * imgQ q V y i := by
  unfold imgQ
  rw [Finset.mul_sum, ← Finset.sum_add_distrib]
  exact Finset.sum_congr rfl fun j _ => by ring

theorem img_smul (q : Fin n → ℝ) (V : Mat m n ℝ) (x : Fin n → ℝ) (t : ℝ) (i : Fin m) : imgQ q V (fun j => t * x j) i = t * imgQ q V x i := by
  unfold imgQ
  rw [Finset.mul_sum]
  exact Finset.sum_congr rfl fun j _ => by ring

theorem ip_add (q : Fin n → ℝ) (x y : Fin n → ℝ) (t : ℝ) : ipQ q (fun j => x j + t * y j) (fun j => x j + t * y j) = ipQ q x x + 2 * t * ipQ q x y + t ^ 2 * ipQ q y y := by
  unfold ipQ
  simp only [Finset.mul_sum, ← Finset.sum_add_distrib]
  exact Finset.sum_congr rfl fun j _ => by ring

theorem form_add (p : Fin m → ℝ) (q : Fin n → ℝ) (V : Mat m n ℝ) (x y : Fin n → ℝ) (t : ℝ) :
    formQ p q V (fun j => x j + t * y j) (fun j => x j + t * y j) = formQ p q V x x + 2 * t * formQ p q V x y + t ^ 2 * formQ p q V y y := by
  unfold formQ
  simp only [img_add, Finset.mul_sum, ← Finset.sum_add_distrib]
  exact Finset.sum_congr rfl fun i _ => by ring

theorem sq_le_of_quadratic {a b c : ℝ} (h : ∀ t : ℝ, 0 ≤ a + 2 * t * b + t ^ 2 * c) : b ^ 2 ≤ a * c := by
  have := discrim_le_zero (a := c) (b := 2 * b) (c := a) fun t => by have := h t; nlinarith
  unfold discrim at this
  nlinarith

theorem ip_nonneg {q : Fin n → ℝ} (hq : ∀ j, 0 < q j) (x : Fin n → ℝ) : 0 ≤ ipQ q x x := Finset.sum_nonneg fun j _ => mul_nonneg (hq j).le (mul_self_nonneg _)

theorem form_nonneg {p : Fin m → ℝ} (hp : ∀ i, 0 < p i) (q : Fin n → ℝ) (V : Mat m n ℝ) (x : Fin n → ℝ) : 0 ≤ formQ p q V x x :=
  Finset.sum_nonneg fun i _ => mul_nonneg (hp i).le (mul_self_nonneg _)

theorem ip_cs {q : Fin n → ℝ} (hq : ∀ j, 0 < q j) (x y : Fin n → ℝ) : ipQ q x y ^ 2 ≤ ipQ q x x * ipQ q y y :=
  sq_le_of_quadratic fun t => by rw [← ip_add]; exact ip_nonneg hq _

theorem form_cs {p : Fin m → ℝ} (hp : ∀ i, 0 < p i) (q : Fin n → ℝ) (V : Mat m n ℝ) (x y : Fin n → ℝ) : formQ p q V x y ^ 2 ≤ formQ p q V x x * formQ p q V y y :=
  sq_le_of_quadratic fun t => by rw [← form_add]; exact form_nonneg hp _ _ _

theorem unit_box {q : Fin n → ℝ} (hq : ∀ j, 0 < q j) (x : Fin n → ℝ) (hx : ∀ j, 0 ≤ x j) (h1 : ipQ q x x = 1) : x ∈ Set.Icc (0 : Fin n → ℝ) (fun j => 1 / √(q j)) := by
  refine ⟨fun j => hx j, fun j => ?_⟩
  have h2 : q j * (x j * x j) ≤ 1 := by
    rw [← h1]
    exact Finset.single_le_sum (f := fun j => q j * (x j * x j)) (fun j _ => mul_nonneg (hq j).le (mul_self_nonneg _)) (Finset.mem_univ j)
  rw [le_div_iff₀ (Real.sqrt_pos.2 (hq j))]
  refine abs_le_of_sq_le_sq' (b := 1) ?_ zero_le_one |>.2
  rw [mul_pow, Real.sq_sqrt (hq j).le]
  linarith

/-- There is a non-negative profile for which the quotient of the two products is largest. -/
theorem exists_top (hn : 0 < n) {p : Fin m → ℝ} (hp : ∀ i, 0 < p i) {q : Fin n → ℝ} (hq : ∀ j, 0 < q j) {V : Mat m n ℝ} (hV : ∀ i j, 0 ≤ V i j) :
    ∃ v : Fin n → ℝ, (∀ j, 0 ≤ v j) ∧ ipQ q v v = 1 ∧ ∀ x, formQ p q V x x ≤ formQ p q V v v * ipQ q x x := by
  have hcont1 : Continuous fun x : Fin n → ℝ => ipQ q x x := by unfold ipQ; fun_prop
  have hcont2 : Continuous fun x : Fin n → ℝ => formQ p q V x x := by unfold formQ imgQ; fun_prop
  have hK : IsCompact {x : Fin n → ℝ | x ∈ Set.Icc (0 : Fin n → ℝ) (fun j => 1 / √(q j)) ∧ ipQ q x x = 1} := by
    refine isCompact_Icc.of_isClosed_subset (isClosed_Icc.inter (isClosed_eq hcont1 continuous_const)) fun x hx => hx.1
  -- scaling to length one
  have hunit : ∀ x : Fin n → ℝ, 0 < ipQ q x x → ipQ q (fun j => (1 / √(ipQ q x x)) * x j) (fun j => (1 / √(ipQ q x x)) * x j) = 1 := fun x hx => by
    have : ipQ q (fun j => (1 / √(ipQ q x x)) * x j) (fun j => (1 / √(ipQ q x x)) * x j) = (1 / √(ipQ q x x)) ^ 2 * ipQ q x x := by
      rw [ipQ, ipQ, Finset.mul_sum]
      exact Finset.sum_congr rfl fun j _ => by ring
    rw [this, div_pow, Real.sq_sqrt hx.le, one_pow, one_div_mul_cancel hx.ne']
  have hone : 0 < ipQ q (fun _ => 1) (fun _ => 1) := Finset.sum_pos (fun j _ => by have := hq j; positivity) ⟨⟨0, hn⟩, Finset.mem_univ _⟩
  obtain ⟨v, ⟨hv1, hv2⟩, hmax⟩ := hK.exists_isMaxOn ⟨_, unit_box hq _ (fun j => by positivity) (hunit _ hone), hunit _ hone⟩ hcont2.continuousOn
  refine ⟨v, fun j => hv1.1 j, hv2, fun x => ?_⟩
  rcases (ip_nonneg hq x).eq_or_lt with h | h
  · have hx : ∀ j, x j = 0 := fun j => by
      have := (Finset.sum_eq_zero_iff_of_nonneg fun j _ => mul_nonneg (hq j).le (mul_self_nonneg (x j))).1 h.symm j (Finset.mem_univ j)
      rcases mul_eq_zero.1 this with h | h
      · exact absurd h (hq j).ne'
      · exact mul_self_eq_zero.1 h
    have : formQ p q V x x = 0 := by
      unfold formQ imgQ
      simp [hx]
    rw [this, ← h, mul_zero]
  · -- the absolute values
    have habs : ipQ q (fun j => |x j|) (fun j => |x j|) = ipQ q x x := Finset.sum_congr rfl fun j _ => by rw [abs_mul_abs_self]
    have hpos : 0 < ipQ q (fun j => |x j|) (fun j => |x j|) := by rw [habs]; exact h
    have h1 : formQ p q V (fun j => (1 / √(ipQ q (fun j => |x j|) fun j => |x j|)) * |x j|) (fun j => (1 / √(ipQ q (fun j => |x j|) fun j => |x j|)) * |x j|) ≤ formQ p q V v v :=
      hmax ⟨unit_box hq _ (fun j => by positivity) (hunit _ hpos), hunit _ hpos⟩
    have h2 : formQ p q V (fun j => (1 / √(ipQ q (fun j => |x j|) fun j => |x j|)) * |x j|) (fun j => (1 / √(ipQ q (fun j => |x j|) fun j => |x j|)) * |x j|) =
        formQ p q V (fun j => |x j|) (fun j => |x j|) / ipQ q x x := by
      rw [← habs]
      unfold formQ
      rw [Finset.sum_div]
      refine Finset.sum_congr rfl fun i _ => ?_
      rw [img_smul, div_mul_eq_mul_div, one_mul, div_mul_div_comm, Real.mul_self_sqrt hpos.le, mul_div_assoc']
    rw [h2, div_le_iff₀ h] at h1
    refine le_trans (Finset.sum_le_sum fun i _ => mul_le_mul_of_nonneg_left ?_ (hp i).le) h1
    rw [← abs_mul_abs_self]
    have h3 : |imgQ q V x i| ≤ imgQ q V (fun j => |x j|) i := by
      unfold imgQ
      refine (Finset.abs_sum_le_sum_abs _ _).trans (Finset.sum_le_sum fun j _ => ?_)
      rw [abs_mul, abs_mul, abs_of_pos (hq j), abs_of_nonneg (hV i j)]
    exact mul_le_mul h3 h3 (abs_nonneg _) ((abs_nonneg _).trans h3)

/-- The same, with the profile nearest to a given one among those with the largest quotient. -/
theorem exists_top_for (hn : 0 < n) {p : Fin m → ℝ} (hp : ∀ i, 0 < p i) {q : Fin n → ℝ} (hq : ∀ j, 0 < q j) {V : Mat m n ℝ} (hV : ∀ i j, 0 ≤ V i j) (z : Fin n → ℝ) :
    ∃ v : Fin n → ℝ, (∀ j, 0 ≤ v j) ∧ ipQ q v v = 1 ∧ (∀ x, formQ p q V x x ≤ formQ p q V v v * ipQ q x x) ∧
      ∀ u : Fin n → ℝ, (∀ j, 0 ≤ u j) → ipQ q u u = 1 → formQ p q V u u = formQ p q V v v → ipQ q z u ≤ ipQ q z v := by
  obtain ⟨v, hv, h1, hmax⟩ := exists_top hn hp hq hV
  have hcont1 : Continuous fun x : Fin n → ℝ => ipQ q x x := by unfold ipQ; fun_prop
  have hcont2 : Continuous fun x : Fin n → ℝ => formQ p q V x x := by unfold formQ imgQ; fun_prop
  have hcont3 : Continuous fun x : Fin n → ℝ => ipQ q z x := by unfold ipQ; fun_prop
  have hK : IsCompact {x : Fin n → ℝ | x ∈ Set.Icc (0 : Fin n → ℝ) (fun j => 1 / √(q j)) ∧ ipQ q x x = 1 ∧ formQ p q V x x = formQ p q V v v} :=
    isCompact_Icc.of_isClosed_subset (isClosed_Icc.inter ((isClosed_eq hcont1 continuous_const).inter (isClosed_eq hcont2 continuous_const))) fun x hx => hx.1
  obtain ⟨y, ⟨hy1, hy2, hy3⟩, hy4⟩ := hK.exists_isMaxOn ⟨v, unit_box hq v hv h1, h1, rfl⟩ hcont3.continuousOn
  exact ⟨y, fun j => hy1.1 j, hy2, fun x => by rw [hy3]; exact hmax x, fun u hu hu1 hu2 => hy4 ⟨unit_box hq u hu hu1, hu1, by rw [hu2, hy3]⟩⟩

theorem top_eigen {p : Fin m → ℝ} {q : Fin n → ℝ} {V : Mat m n ℝ} {v : Fin n → ℝ} (h1 : ipQ q v v = 1) (hmax : ∀ x, formQ p q V x x ≤ formQ p q V v v * ipQ q x x) (y : Fin n → ℝ) :
    formQ p q V v y = formQ p q V v v * ipQ q v y := by
  have h : (formQ p q V v v * ipQ q v y - formQ p q V v y) ^ 2 ≤ (formQ p q V v v * ipQ q v v - formQ p q V v v) * (formQ p q V v v * ipQ q y y - formQ p q V y y) :=
    sq_le_of_quadratic fun t => by
      have := hmax fun j => v j + t * y j
      rw [form_add, ip_add] at this
      nlinarith
  rw [h1, mul_one, sub_self, zero_mul] at h
  have := pow_eq_zero_iff (two_ne_zero) |>.1 (le_antisymm h (sq_nonneg _))
  linarith

theorem ip_comm (q : Fin n → ℝ) (x y : Fin n → ℝ) : ipQ q x y = ipQ q y x := Finset.sum_congr rfl fun j _ => by ring

theorem form_comm (p : Fin m → ℝ) (q : Fin n → ℝ) (V : Mat m n ℝ) (x y : Fin n → ℝ) : formQ p q V x y = formQ p q V y x := Finset.sum_congr rfl fun i _ => by ring

/-- One step: the quotient does not fall, and the angle to the top profile falls by the quotients. -/
theorem power_step {p : Fin m → ℝ} (hp : ∀ i, 0 < p i) {q : Fin n → ℝ} (hq : ∀ j, 0 < q j) {V : Mat m n ℝ} {v : Fin n → ℝ} (h1 : ipQ q v v = 1) (hmax : ∀ x, formQ p q V x x ≤ formQ p q V v v * ipQ q x x)
    (x y : Fin n → ℝ) (c : ℝ) (hc : 0 < c) (hy : ∀ j, y j = c * powQ p q V x j) (hx : 0 < ipQ q x x) (hy0 : 0 < ipQ q y y) (hfx : 0 < formQ p q V x x) (hxv : 0 < ipQ q x v) :
    formQ p q V x x / ipQ q x x ≤ formQ p q V y y / ipQ q y y ∧
      ipQ q x v ^ 2 / ipQ q x x * (formQ p q V v v / (formQ p q V y y / ipQ q y y)) ^ 2 ≤ ipQ q y v ^ 2 / ipQ q y y ∧ 0 < ipQ q y v := by
  have hip : ∀ z, ipQ q y z = c * formQ p q V x z := fun z => by
    rw [← ip_pow, ipQ, ipQ, Finset.mul_sum]
    exact Finset.sum_congr rfl fun j _ => by rw [hy j]; ring
  have hlam : 0 < formQ p q V v v := by
    have := hmax x
    by_contra hn
    push Not at hn
    nlinarith
  -- the two Cauchy-Schwarz inequalities
  have a1 : (c * formQ p q V x x) ^ 2 ≤ ipQ q y y * ipQ q x x := by
    rw [← hip]
    exact ip_cs hq y x
  have a2 : (ipQ q y y) ^ 2 ≤ c ^ 2 * (formQ p q V x x * formQ p q V y y) := by
    rw [hip, mul_pow]
    exact mul_le_mul_of_nonneg_left (form_cs hp q V x y) (sq_nonneg c)
  have hyv : ipQ q y v = c * (formQ p q V v v * ipQ q x v) := by
    rw [hip, form_comm, top_eigen h1 hmax, ip_comm]
  have hfy : 0 < formQ p q V y y := by
    by_contra hn
    push Not at hn
    have : c ^ 2 * (formQ p q V x x * formQ p q V y y) ≤ 0 := mul_nonpos_of_nonneg_of_nonpos (sq_nonneg c) (mul_nonpos_of_nonneg_of_nonpos hfx.le hn)
    nlinarith [pow_pos hy0 2]
  set A := formQ p q V x x with hA
  set B := formQ p q V y y with hB
  set X := ipQ q x x with hX
  set Y := ipQ q y y with hY
  set L := formQ p q V v v with hL
  have hmono : A * Y ≤ B * X := by
    -- A² c² ≤ Y X and Y² ≤ c² A B give A Y ≤ B X
    have h2 : (c * A) ^ 2 * Y ^ 2 ≤ (Y * X) * (c ^ 2 * (A * B)) := mul_le_mul a1 a2 (sq_nonneg _) (mul_pos hy0 hx).le
    have h3 : (c ^ 2 * A * Y) * (A * Y) ≤ (c ^ 2 * A * Y) * (B * X) := by nlinarith
    exact le_of_mul_le_mul_left h3 (by positivity)
  refine ⟨by rw [div_le_div_iff₀ hx hy0]; exact hmono, ?_, by rw [hyv]; positivity⟩
  rw [hyv]
  -- Y² ≤ c² A B, and A Y ≤ B X
  have h4 : Y ^ 3 ≤ c ^ 2 * B ^ 2 * X := by
    have : Y ^ 2 * Y ≤ c ^ 2 * (A * B) * Y := mul_le_mul_of_nonneg_right a2 hy0.le
    have h5 : c ^ 2 * B * (A * Y) ≤ c ^ 2 * B * (B * X) := mul_le_mul_of_nonneg_left hmono (by positivity)
    nlinarith
  set Z := ipQ q x v with hZ
  have e1 : Z ^ 2 / X * (L / (B / Y)) ^ 2 = Z ^ 2 * L ^ 2 * Y ^ 2 / (X * B ^ 2) := by
    field_simp
  have e2 : (c * (L * Z)) ^ 2 / Y = Z ^ 2 * L ^ 2 * c ^ 2 / Y := by ring
  rw [e1, e2, div_le_div_iff₀ (by positivity) hy0]
  have := mul_le_mul_of_nonneg_left h4 (show 0 ≤ Z ^ 2 * L ^ 2 by positivity)
  nlinarith

/-- The power iteration: after `s` steps the quotient falls short of the largest one by at most the largest one times the squared tangent of the angle at the start, divided by `2 s`. -/
theorem power_rate {p : Fin m → ℝ} (hp : ∀ i, 0 < p i) {q : Fin n → ℝ} (hq : ∀ j, 0 < q j) {V : Mat m n ℝ} {v : Fin n → ℝ} (h1 : ipQ q v v = 1) (hmax : ∀ x, formQ p q V x x ≤ formQ p q V v v * ipQ q x x)
    (h : ℕ → Fin n → ℝ) (c : ℕ → ℝ) (hc : ∀ s, 0 < c s) (hstep : ∀ s j, h (s + 1) j = c s * powQ p q V (h s) j) (hx : ∀ s, 0 < ipQ q (h s) (h s)) (hf : ∀ s, 0 < formQ p q V (h s) (h s)) (hv : 0 < ipQ q (h 0) v) (s : ℕ) :
    2 * s * (formQ p q V v v - formQ p q V (h s) (h s) / ipQ q (h s) (h s)) ≤ formQ p q V v v * (ipQ q (h 0) (h 0) / ipQ q (h 0) v ^ 2 - 1) := by
  have key : ∀ s, 0 < ipQ q (h s) v ∧ ipQ q (h 0) v ^ 2 / ipQ q (h 0) (h 0) * (formQ p q V v v / (formQ p q V (h s) (h s) / ipQ q (h s) (h s))) ^ (2 * s) ≤ ipQ q (h s) v ^ 2 / ipQ q (h s) (h s) := by
    intro s
    induction s with
    | zero => exact ⟨hv, by simp⟩
    | succ s ih =>
      obtain ⟨k1, k2, k3⟩ := power_step hp hq h1 hmax (h s) (h (s + 1)) (c s) (hc s) (hstep s) (hx s) (hx (s + 1)) (hf s) ih.1
      refine ⟨k3, le_trans ?_ k2⟩
      have hr : 0 < formQ p q V (h s) (h s) / ipQ q (h s) (h s) := div_pos (hf s) (hx s)
      have hl : 0 < formQ p q V v v := by
        have := hmax (h s)
        by_contra hn
        push Not at hn
        nlinarith [hf s, hx s]
      have h2 : formQ p q V v v / (formQ p q V (h (s + 1)) (h (s + 1)) / ipQ q (h (s + 1)) (h (s + 1))) ≤ formQ p q V v v / (formQ p q V (h s) (h s) / ipQ q (h s) (h s)) :=
        div_le_div_of_nonneg_left hl.le hr k1
      have h0 : 0 ≤ formQ p q V v v / (formQ p q V (h (s + 1)) (h (s + 1)) / ipQ q (h (s + 1)) (h (s + 1))) := div_nonneg hl.le (div_pos (hf _) (hx _)).le
      rw [show 2 * (s + 1) = 2 * s + 2 by ring, pow_add, ← mul_assoc]
      refine mul_le_mul_of_nonneg_right (le_trans ?_ ih.2) (sq_nonneg _)
      exact mul_le_mul_of_nonneg_left (pow_le_pow_left₀ h0 h2 _) (div_nonneg (sq_nonneg _) (hx 0).le)
  obtain ⟨-, k⟩ := key s
  have hle : ipQ q (h s) v ^ 2 / ipQ q (h s) (h s) ≤ 1 := by
    rw [div_le_one (hx s)]
    have := ip_cs hq (h s) v
    rwa [h1, mul_one] at this
  have hth : 0 < ipQ q (h 0) v ^ 2 / ipQ q (h 0) (h 0) := div_pos (pow_pos hv 2) (hx 0)
  set R := formQ p q V (h s) (h s) / ipQ q (h s) (h s) with hR
  have hR0 : 0 < R := div_pos (hf s) (hx s)
  have hRL : R ≤ formQ p q V v v := by
    rw [hR, div_le_iff₀ (hx s)]
    exact hmax _
  have hL0 : 0 < formQ p q V v v := lt_of_lt_of_le hR0 hRL
  have hb := one_add_mul_le_pow (show (-2 : ℝ) ≤ formQ p q V v v / R - 1 by have := div_pos hL0 hR0; linarith) (2 * s)
  rw [add_sub_cancel] at hb
  have h3 : (formQ p q V v v / R) ^ (2 * s) ≤ ipQ q (h 0) (h 0) / ipQ q (h 0) v ^ 2 := by
    have := k.trans hle
    rw [mul_comm, ← le_div_iff₀ hth, one_div_div] at this
    exact this
  have h4 : 2 * (s : ℝ) * (formQ p q V v v / R - 1) ≤ ipQ q (h 0) (h 0) / ipQ q (h 0) v ^ 2 - 1 := by
    push_cast at hb
    linarith
  have h5 : 2 * (s : ℝ) * (formQ p q V v v - R) = R * (2 * s * (formQ p q V v v / R - 1)) := by
    field_simp
  rw [h5]
  have h6 : 0 ≤ ipQ q (h 0) (h 0) / ipQ q (h 0) v ^ 2 - 1 := by
    have := ip_cs hq (h 0) v
    rw [h1, mul_one] at this
    rw [sub_nonneg, le_div_iff₀ (pow_pos hv 2), one_mul]
    exact this
  calc R * (2 * s * (formQ p q V v v / R - 1)) ≤ R * (ipQ q (h 0) (h 0) / ipQ q (h 0) v ^ 2 - 1) := mul_le_mul_of_nonneg_left h4 hR0.le
    _ ≤ _ := mul_le_mul_of_nonneg_right hRL h6


theorem ip_smul (q : Fin n → ℝ) (a b : ℝ) (x y : Fin n → ℝ) : ipQ q (fun j => a * x j) (fun j => b * y j) = a * b * ipQ q x y := by
  rw [ipQ, ipQ, Finset.mul_sum]
  exact Finset.sum_congr rfl fun j _ => by ring

theorem ip_smul_left (q : Fin n → ℝ) (a : ℝ) (x y : Fin n → ℝ) : ipQ q (fun j => a * x j) y = a * ipQ q x y := by
  rw [ipQ, ipQ, Finset.mul_sum]
  exact Finset.sum_congr rfl fun j _ => by ring

theorem form_smul (p : Fin m → ℝ) (q : Fin n → ℝ) (V : Mat m n ℝ) (a : ℝ) (x : Fin n → ℝ) : formQ p q V (fun j => a * x j) (fun j => a * x j) = a * a * formQ p q V x x := by
  simp only [formQ, img_smul]
  rw [Finset.mul_sum]
  exact Finset.sum_congr rfl fun i _ => by ring

/-- The power iteration converges, after scaling to length one, to the nearest profile with the largest quotient. -/
theorem power_limit {p : Fin m → ℝ} (hp : ∀ i, 0 < p i) {q : Fin n → ℝ} (hq : ∀ j, 0 < q j) {V : Mat m n ℝ} {v : Fin n → ℝ} (h1 : ipQ q v v = 1) (hmax : ∀ x, formQ p q V x x ≤ formQ p q V v v * ipQ q x x)
    (h : ℕ → Fin n → ℝ) (c : ℕ → ℝ) (hc : ∀ s, 0 < c s) (hstep : ∀ s j, h (s + 1) j = c s * powQ p q V (h s) j) (hpos : ∀ s j, 0 < h s j) (hx : ∀ s, 0 < ipQ q (h s) (h s)) (hf : ∀ s, 0 < formQ p q V (h s) (h s)) (hv : 0 < ipQ q (h 0) v)
    (hnear : ∀ u : Fin n → ℝ, (∀ j, 0 ≤ u j) → ipQ q u u = 1 → formQ p q V u u = formQ p q V v v → ipQ q (h 0) u ≤ ipQ q (h 0) v) :
    Tendsto (fun s j => 1 / √(ipQ q (h s) (h s)) * h s j) atTop (𝓝 v) := by
  set e : ℕ → Fin n → ℝ := fun s j => 1 / √(ipQ q (h s) (h s)) * h s j with he
  have hcont1 : Continuous fun x : Fin n → ℝ => ipQ q x x := by unfold ipQ; fun_prop
  have hcont2 : Continuous fun x : Fin n → ℝ => formQ p q V x x := by unfold formQ imgQ; fun_prop
  have hcont3 : ∀ z, Continuous fun x : Fin n → ℝ => ipQ q x z := fun z => by unfold ipQ; fun_prop
  have he0 : ∀ s j, 0 ≤ e s j := fun s j => mul_nonneg (by positivity) (hpos s j).le
  have hsq : ∀ s, 1 / √(ipQ q (h s) (h s)) * (1 / √(ipQ q (h s) (h s))) = 1 / ipQ q (h s) (h s) := fun s => by
    rw [div_mul_div_comm, one_mul, Real.mul_self_sqrt (hx s).le]
  have he1 : ∀ s, ipQ q (e s) (e s) = 1 := fun s => by
    rw [he]
    simp only
    rw [ip_smul, hsq, one_div_mul_cancel (hx s).ne']
  have heF : ∀ s, formQ p q V (e s) (e s) = formQ p q V (h s) (h s) / ipQ q (h s) (h s) := fun s => by
    rw [he]
    simp only
    rw [form_smul, hsq, one_div_mul_eq_div]
  -- the quotients tend to the largest one
  have hlim : Tendsto (fun s => formQ p q V (e s) (e s)) atTop (𝓝 (formQ p q V v v)) := by
    set C := formQ p q V v v * (ipQ q (h 0) (h 0) / ipQ q (h 0) v ^ 2 - 1) with hC
    have hlow : Tendsto (fun s : ℕ => formQ p q V v v - C / 2 / s) atTop (𝓝 (formQ p q V v v)) := by
      have := (tendsto_const_div_atTop_nhds_zero_nat (C / 2)).const_sub (formQ p q V v v)
      rwa [sub_zero] at this
    refine tendsto_of_tendsto_of_tendsto_of_le_of_le' hlow tendsto_const_nhds ?_ (Eventually.of_forall fun s => ?_)
    · filter_upwards [eventually_gt_atTop 0] with s hs
      have hs' : (0 : ℝ) < s := Nat.cast_pos.2 hs
      have := power_rate hp hq h1 hmax h c hc hstep hx hf hv s
      rw [heF]
      rw [sub_le_comm, le_div_iff₀ hs']
      linarith
    · have := hmax (e s)
      rwa [he1, mul_one] at this
  -- products with profiles of the largest quotient
  have hprod : ∀ x, ipQ q x x = 1 → formQ p q V x x = formQ p q V v v → ∀ s, ipQ q (h s) x * ipQ q (h 0) v = ipQ q (h 0) x * ipQ q (h s) v := by
    intro x hx1 hxF s
    induction s with
    | zero => ring
    | succ s ih =>
      have hstep' : ∀ y, ipQ q y y = 1 → formQ p q V y y = formQ p q V v v → ipQ q (h (s + 1)) y = c s * (formQ p q V v v * ipQ q (h s) y) := fun y hy1 hyF => by
        rw [show h (s + 1) = fun j => c s * powQ p q V (h s) j from funext (hstep s), ip_smul_left, ip_pow, form_comm, top_eigen hy1 (by rw [hyF]; exact hmax), hyF, ip_comm]
      rw [hstep' x hx1 hxF, hstep' v h1 rfl]
      linear_combination c s * formQ p q V v v * ih
  refine isCompact_Icc.tendsto_nhds_of_unique_mapClusterPt (Eventually.of_forall fun s => unit_box hq (e s) (he0 s) (he1 s)) fun u hu hcl => ?_
  obtain ⟨U, hU, hUt⟩ := mapClusterPt_iff_ultrafilter.1 hcl
  have hu1 : ipQ q u u = 1 := tendsto_nhds_unique ((hcont1.tendsto u).comp hUt) ((tendsto_congr fun s => he1 s).2 tendsto_const_nhds)
  have huF : formQ p q V u u = formQ p q V v v := tendsto_nhds_unique ((hcont2.tendsto u).comp hUt) (hlim.mono_left hU)
  have hrel : ipQ q u u * ipQ q (h 0) v = ipQ q (h 0) u * ipQ q u v := by
    refine tendsto_nhds_unique (((hcont3 u).tendsto u).comp hUt |>.mul_const _) ((tendsto_congr fun s => ?_).2 ((((hcont3 v).tendsto u).comp hUt).const_mul _))
    simp only [Function.comp_apply, he]
    rw [ip_smul_left, ip_smul_left]
    linear_combination (1 / √(ipQ q (h s) (h s))) * hprod u hu1 huF s
  rw [hu1, one_mul] at hrel
  have hnr := hnear u (fun j => hu.1 j) hu1 huF
  have hu0 : 0 < ipQ q (h 0) u := by
    refine lt_of_le_of_ne (Finset.sum_nonneg fun j _ => mul_nonneg (hq j).le (mul_nonneg (hpos 0 j).le (hu.1 j))) fun h0 => ?_
    rw [← h0, zero_mul] at hrel
    exact hv.ne' hrel
  have huv : 1 ≤ ipQ q u v := by
    by_contra hlt
    push Not at hlt
    nlinarith
  have hdist : ipQ q (fun j => u j + (-1) * v j) (fun j => u j + (-1) * v j) = 0 := by
    refine le_antisymm ?_ (ip_nonneg hq _)
    rw [ip_add, hu1, h1]
    linarith
  funext j
  have := (Finset.sum_eq_zero_iff_of_nonneg fun j _ => mul_nonneg (hq j).le (mul_self_nonneg (u j + (-1) * v j))).1 hdist j (Finset.mem_univ j)
  rcases mul_eq_zero.1 this with h | h
  · exact absurd h (hq j).ne'
  · have := mul_self_eq_zero.1 h
    linarith

/-! ## The loss -/

/-- Weighted squared loss of one factor. -/
def lossPQ (p : Fin m → ℝ) (q : Fin n → ℝ) (V : Mat m n ℝ) (w : Fin m → ℝ) (h : Fin n → ℝ) : ℝ := ∑ i, ∑ j, p i * q j * (V i j - w i * h j) ^ 2

theorem lossPQ_expand (p : Fin m → ℝ) (q : Fin n → ℝ) (V : Mat m n ℝ) (w : Fin m → ℝ) (h : Fin n → ℝ) :
    lossPQ p q V w h = lossPQ p q V 0 0 + ∑ i, p i * (w i ^ 2 * ipQ q h h - 2 * w i * imgQ q V h i) := by
  unfold lossPQ
  rw [← Finset.sum_add_distrib]
  refine Finset.sum_congr rfl fun i _ => ?_
  unfold ipQ imgQ
  simp only [Finset.mul_sum, ← Finset.sum_sub_distrib, ← Finset.sum_add_distrib]
  exact Finset.sum_congr rfl fun j _ => by simp only [Pi.zero_apply]; ring

/-- With the best contributions of the profile the loss is that of no factor minus the quotient. -/
theorem lossPQ_best (p : Fin m → ℝ) (q : Fin n → ℝ) (V : Mat m n ℝ) (w : Fin m → ℝ) (h : Fin n → ℝ) (hh : 0 < ipQ q h h) (hw : ∀ i, w i = imgQ q V h i / ipQ q h h) :
    lossPQ p q V w h = lossPQ p q V 0 0 - formQ p q V h h / ipQ q h h := by
  rw [lossPQ_expand, sub_eq_add_neg, formQ, Finset.sum_div, ← Finset.sum_neg_distrib]
  congr 1
  refine Finset.sum_congr rfl fun i _ => ?_
  rw [hw]
  field_simp
  ring

theorem lossPQ_ge {p : Fin m → ℝ} (hp : ∀ i, 0 < p i) {q : Fin n → ℝ} (hq : ∀ j, 0 < q j) {V : Mat m n ℝ} {v : Fin n → ℝ} (hmax : ∀ x, formQ p q V x x ≤ formQ p q V v v * ipQ q x x) (w : Fin m → ℝ) (h : Fin n → ℝ) :
    lossPQ p q V 0 0 - formQ p q V v v ≤ lossPQ p q V w h := by
  rw [lossPQ_expand p q V w h]
  -- 2 w g ≤ w² X + g² L / (L X) and so on: complete the square
  set X := ipQ q h h with hX
  set L := formQ p q V v v with hL
  have hX0 : 0 ≤ X := ip_nonneg hq h
  have hF : formQ p q V h h ≤ L * X := hmax h
  rcases hX0.eq_or_lt with h0 | h0
  · have hz : formQ p q V h h = 0 := le_antisymm (by rw [← h0, mul_zero] at hF; exact hF) (form_nonneg hp q V h)
    have hi : ∀ i, imgQ q V h i = 0 := fun i => by
      have := (Finset.sum_eq_zero_iff_of_nonneg fun i _ => mul_nonneg (hp i).le (mul_self_nonneg (imgQ q V h i))).1 hz i (Finset.mem_univ i)
      rcases mul_eq_zero.1 this with h | h
      · exact absurd h (hp i).ne'
      · exact mul_self_eq_zero.1 h
    have : ∑ i, p i * (w i ^ 2 * X - 2 * w i * imgQ q V h i) = 0 := Finset.sum_eq_zero fun i _ => by rw [hi, ← h0]; ring
    have hL0 : 0 ≤ L := form_nonneg hp q V v
    linarith
  · have h1 : -(formQ p q V h h / X) ≤ ∑ i, p i * (w i ^ 2 * X - 2 * w i * imgQ q V h i) := by
      rw [formQ, Finset.sum_div, ← Finset.sum_neg_distrib]
      refine Finset.sum_le_sum fun i _ => ?_
      rw [mul_div_assoc, ← mul_neg]
      refine mul_le_mul_of_nonneg_left ?_ (hp i).le
      have : w i ^ 2 * X - 2 * w i * imgQ q V h i - -(imgQ q V h i * imgQ q V h i / X) = (w i * X - imgQ q V h i) ^ 2 / X := by
        field_simp
        ring
      have h2 := div_nonneg (sq_nonneg (w i * X - imgQ q V h i)) h0.le
      linarith
    have h2 : formQ p q V h h / X ≤ L := by rw [div_le_iff₀ h0]; exact hF
    linarith

end power

/-! ## The runs -/

section runs
variable {m n : ℕ}

/-- The profile direction which the first update computes: the products of the features with the contributions of the start, in units of the sample uncertainties. -/
noncomputable def firstProfile (α : Fin m → ℝ) (V : Mat m n ℝ) (W : Mat m 1 ℝ) (j : Fin n) : ℝ := ∑ i, W i 0 * V i j / α i ^ 2

/-- Loss of a model with one factor. -/
noncomputable def oneLoss (V : Mat m n ℝ) (α : Fin m → ℝ) (β : Fin n → ℝ) (w : Fin m → ℝ) (h : Fin n → ℝ) : ℝ := ∑ i, ∑ j, ((V i j - w i * h j) / (α i * β j)) ^ 2

/-- The squared tangent of the angle between two profiles in units of the feature uncertainties. -/
noncomputable def tanSq (β : Fin n → ℝ) (x y : Fin n → ℝ) : ℝ := (∑ j, (x j / β j) ^ 2) * (∑ j, (y j / β j) ^ 2) / (∑ j, x j * y j / β j ^ 2) ^ 2 - 1

theorem oneLoss_eq (V : Mat m n ℝ) (α : Fin m → ℝ) (β : Fin n → ℝ) (w : Fin m → ℝ) (h : Fin n → ℝ) :
    oneLoss V α β w h = lossPQ (fun i => 1 / α i ^ 2) (fun j => 1 / β j ^ 2) V w h :=
  Finset.sum_congr rfl fun i _ => Finset.sum_congr rfl fun j _ => by rw [div_pow, mul_pow, div_mul_div_comm, one_mul, one_div_mul_eq_div]

theorem qLoss_one (V : Mat m n ℝ) (α : Fin m → ℝ) (β : Fin n → ℝ) (W : Mat m 1 ℝ) (H : Mat 1 n ℝ) :
    qLoss V (fun i j => α i * β j) W H = oneLoss V α β (fun i => W i 0) (H 0) := by
  rw [qLoss_eq_WLoss]
  refine Finset.sum_congr rfl fun i _ => Finset.sum_congr rfl fun j _ => ?_
  rw [weights, div_pow, one_div_mul_eq_div]
  simp [mmul]

/-- **C261, the update.** With one factor and uncertainties of product form an update computes the products of the features with the old contributions, divided by a number, and then the products of the samples with the new profile, divided
by its length. -/
theorem C261_update {V : Mat m n ℝ} {α : Fin m → ℝ} {β : Fin n → ℝ} (hβ : ∀ j, β j ≠ 0) {W W' : Mat m 1 ℝ} {H H' : Mat 1 n ℝ} (hW : ∀ i, 0 < W i 0) (hH : ∀ j, 0 < H 0 j)
    (h : lsUpdate V (weights fun i j => α i * β j) false W H = some (W', H')) :
    (∀ j, H' 0 j = (∑ i, W i 0 * V i j / α i ^ 2) / ∑ i, (W i 0 / α i) ^ 2) ∧ ∀ i, W' i 0 = (∑ j, V i j * H' 0 j / β j ^ 2) / ∑ j, (H' 0 j / β j) ^ 2 := by
  obtain ⟨h1, h2⟩ := lsUpdate_eq_some.1 h
  have h1 : lsStepH V (weights fun i j => α i * β j) W H = some H' := by
    rcases h1 with h | h
    · exact absurd h.1 (by decide)
    · exact h.2
  obtain ⟨d1, e1⟩ := lsStepH_eq_some.1 h1
  obtain ⟨d2, e2⟩ := lsStepW_eq_some.1 h2
  have hden : ∀ j, lsHDen (weights fun i j => α i * β j) W H 0 j = H 0 j / β j ^ 2 * ∑ i, (W i 0 / α i) ^ 2 := fun j => by
    rw [lsHDen_apply, Finset.mul_sum]
    refine Finset.sum_congr rfl fun i _ => ?_
    simp only [weights, Fin.sum_univ_one, mul_pow, div_eq_mul_inv, mul_inv]
    ring
  have hnum : ∀ j, lsHNum V (weights fun i j => α i * β j) W 0 j = 1 / β j ^ 2 * ∑ i, W i 0 * V i j / α i ^ 2 := fun j => by
    rw [lsHNum_apply, Finset.mul_sum]
    refine Finset.sum_congr rfl fun i _ => ?_
    simp only [weights, mul_pow, div_eq_mul_inv, mul_inv]
    ring
  have hden' : ∀ i, lsWDen (weights fun i j => α i * β j) W H' i 0 = W i 0 / α i ^ 2 * ∑ j, (H' 0 j / β j) ^ 2 := fun i => by
    rw [lsWDen_apply, Finset.mul_sum]
    refine Finset.sum_congr rfl fun j _ => ?_
    simp only [weights, Fin.sum_univ_one, mul_pow, div_eq_mul_inv, mul_inv]
    ring
  have hnum' : ∀ i, lsWNum V (weights fun i j => α i * β j) H' i 0 = 1 / α i ^ 2 * ∑ j, V i j * H' 0 j / β j ^ 2 := fun i => by
    rw [lsWNum_apply, Finset.mul_sum]
    refine Finset.sum_congr rfl fun j _ => ?_
    simp only [weights, mul_pow, div_eq_mul_inv, mul_inv]
    ring
  constructor
  · intro j
    have hd := d1 0 j
    rw [hden] at hd
    have hs : (∑ i, (W i 0 / α i) ^ 2) ≠ 0 := right_ne_zero_of_mul hd
    have h3 := (hH j).ne'
    have h4 := hβ j
    rw [e1, hnum, hden]
    field_simp
  · intro i
    have hd := d2 i 0
    rw [hden'] at hd
    have hs : (∑ j, (H' 0 j / β j) ^ 2) ≠ 0 := right_ne_zero_of_mul hd
    have h3 := (hW i).ne'
    have h4 : α i ≠ 0 := by
      rintro h0
      rw [h0] at hd
      simp at hd
    rw [e2, hnum', hden']
    field_simp

/-- **C261, the best models.** Among all models with one factor, of any signs, there is a best one, and it can be chosen non-negative. -/
theorem C261_best (hn : 0 < n) {V : Mat m n ℝ} (hV : ∀ i j, 0 ≤ V i j) {α : Fin m → ℝ} {β : Fin n → ℝ} (hα : ∀ i, α i ≠ 0) (hβ : ∀ j, β j ≠ 0) :
    ∃ (x : Fin m → ℝ) (y : Fin n → ℝ), (∀ i, 0 ≤ x i) ∧ (∀ j, 0 ≤ y j) ∧ (∑ j, (y j / β j) ^ 2) = 1 ∧ ∀ w h, oneLoss V α β x y ≤ oneLoss V α β w h := by
  have hp : ∀ i, 0 < 1 / α i ^ 2 := fun i => by have := hα i; positivity
  have hq : ∀ j, 0 < 1 / β j ^ 2 := fun j => by have := hβ j; positivity
  obtain ⟨v, hv, h1, hmax⟩ := exists_top hn hp hq hV
  refine ⟨imgQ (fun j => 1 / β j ^ 2) V v, v, fun i => Finset.sum_nonneg fun j _ => mul_nonneg (hq j).le (mul_nonneg (hV i j) (hv j)), hv, ?_, fun w h => ?_⟩
  · rw [← h1]
    exact Finset.sum_congr rfl fun j _ => by rw [div_pow]; ring
  · rw [oneLoss_eq, oneLoss_eq, lossPQ_best _ _ V _ v (by rw [h1]; exact one_pos) (fun i => by rw [h1, div_one]), h1, div_one]
    exact lossPQ_ge hp hq hmax w h

/-- **C261, the rate.** For each proper start with one factor and uncertainties of product form there is a best model of one factor such that the loss after `t + 1` updates exceeds its loss by at most `(S - Q) T / (2 t)`: `S` is the loss of no
factor at all, `Q` that of the best model and `T` the squared tangent of the angle between the best profile and the first one computed. The modelled values converge to those of the best model. -/
theorem C261_rate {V : Mat m n ℝ} {α : Fin m → ℝ} {β : Fin n → ℝ} {W : Mat m 1 ℝ} {H : Mat 1 n ℝ} (g : GoodStart V (fun i j => α i * β j) W H) :
    ∃ (x : Fin m → ℝ) (y : Fin n → ℝ), (∀ i, 0 ≤ x i) ∧ (∀ j, 0 ≤ y j) ∧ (∀ w h, oneLoss V α β x y ≤ oneLoss V α β w h) ∧
      ∀ (Ws : ℕ → Mat m 1 ℝ) (Hs : ℕ → Mat 1 n ℝ), Ws 0 = W → Hs 0 = H → (∀ s, lsUpdate V (weights fun i j => α i * β j) false (Ws s) (Hs s) = some (Ws (s + 1), Hs (s + 1))) →
        (∀ t : ℕ, 2 * t * (oneLoss V α β (fun i => Ws (t + 1) i 0) (Hs (t + 1) 0) - oneLoss V α β x y) ≤ (oneLoss V α β 0 0 - oneLoss V α β x y) * tanSq β (firstProfile α V W) y) ∧
          ∀ i j, Tendsto (fun t => Ws t i 0 * Hs t 0 j) atTop (𝓝 (x i * y j)) := by
  have hα : ∀ i, α i ≠ 0 := fun i => left_ne_zero_of_mul (g.unc i ⟨0, g.cols⟩)
  have hβ : ∀ j, β j ≠ 0 := fun j => right_ne_zero_of_mul (g.unc ⟨0, g.rows⟩ j)
  set p : Fin m → ℝ := fun i => 1 / α i ^ 2 with hpd
  set q : Fin n → ℝ := fun j => 1 / β j ^ 2 with hqd
  have hp : ∀ i, 0 < p i := fun i => by have := hα i; simp only [hpd]; positivity
  have hq : ∀ j, 0 < q j := fun j => by have := hβ j; simp only [hqd]; positivity
  have hm : Nonempty (Fin m) := ⟨⟨0, g.rows⟩⟩
  have hn : Nonempty (Fin n) := ⟨⟨0, g.cols⟩⟩
  obtain ⟨v, hv, h1, hmax, hnear⟩ := exists_top_for g.cols hp hq g.data (firstProfile α V W)
  have hbest : oneLoss V α β (imgQ q V v) v = lossPQ p q V 0 0 - formQ p q V v v := by
    rw [oneLoss_eq, lossPQ_best _ _ V _ v (by rw [h1]; exact one_pos) (fun i => by rw [h1, div_one]), h1, div_one]
  refine ⟨imgQ q V v, v, fun i => Finset.sum_nonneg fun j _ => mul_nonneg (hq j).le (mul_nonneg (g.data i j) (hv j)), hv, fun w h => by rw [hbest, oneLoss_eq]; exact lossPQ_ge hp hq hmax w h, ?_⟩
  intro Ws Hs hW0 hH0 hu
  -- the factors stay positive
  have hpos : ∀ s, (∀ i a, 0 < Ws s i a) ∧ ∀ a j, 0 < Hs s a j := by
    intro s
    induction s with
    | zero => exact ⟨by rw [hW0]; exact g.w, by rw [hH0]; exact g.h⟩
    | succ s ih =>
      obtain ⟨W'', H'', h3, h4, h5⟩ := lsUpdate_pos g.rows g.cols g.data g.row g.col (weights_pos g.unc) ih.1 ih.2 false
      rw [hu s] at h3
      have := Option.some.inj h3
      rw [show Ws (s + 1) = W'' from congrArg Prod.fst this, show Hs (s + 1) = H'' from congrArg Prod.snd this]
      exact ⟨h4, h5⟩
  have hup := fun s => C261_update hβ (fun i => (hpos s).1 i 0) (fun j => (hpos s).2 0 j) (hu s)
  have himg : ∀ s i, imgQ q V (Hs s 0) i = ∑ j, V i j * Hs s 0 j / β j ^ 2 := fun s i => Finset.sum_congr rfl fun j _ => by simp only [hqd]; ring
  have hip : ∀ s, ipQ q (Hs s 0) (Hs s 0) = ∑ j, (Hs s 0 j / β j) ^ 2 := fun s => Finset.sum_congr rfl fun j _ => by simp only [hqd, div_pow]; ring
  have hip0 : ∀ s, 0 < ipQ q (Hs s 0) (Hs s 0) := fun s => Finset.sum_pos (fun j _ => mul_pos (hq j) (mul_pos ((hpos s).2 0 j) ((hpos s).2 0 j))) Finset.univ_nonempty
  have himg0 : ∀ s i, 0 < imgQ q V (Hs s 0) i := fun s i => by
    obtain ⟨j, hj⟩ := g.row i
    exact Finset.sum_pos' (fun j _ => mul_nonneg (hq j).le (mul_nonneg (g.data i j) ((hpos s).2 0 j).le)) ⟨j, Finset.mem_univ j, mul_pos (hq j) (mul_pos hj ((hpos s).2 0 j))⟩
  have hf0 : ∀ s, 0 < formQ p q V (Hs s 0) (Hs s 0) := fun s => Finset.sum_pos (fun i _ => mul_pos (hp i) (mul_pos (himg0 s i) (himg0 s i))) Finset.univ_nonempty
  have hw : ∀ s i, Ws (s + 1) i 0 = imgQ q V (Hs (s + 1) 0) i / ipQ q (Hs (s + 1) 0) (Hs (s + 1) 0) := fun s i => by rw [himg, hip]; exact (hup s).2 i
  have hD : ∀ s, 0 < ∑ i, (Ws s i 0 / α i) ^ 2 := fun s => Finset.sum_pos (fun i _ => sq_pos_of_ne_zero (div_ne_zero ((hpos s).1 i 0).ne' (hα i))) Finset.univ_nonempty
  have hstep : ∀ s j, Hs (s + 2) 0 j = (1 / (ipQ q (Hs (s + 1) 0) (Hs (s + 1) 0) * ∑ i, (Ws (s + 1) i 0 / α i) ^ 2)) * powQ p q V (Hs (s + 1) 0) j := fun s j => by
    rw [(hup (s + 1)).1 j, one_div, mul_inv, mul_comm (_⁻¹) (_⁻¹), mul_assoc, ← div_eq_inv_mul, powQ, Finset.mul_sum]
    congr 1
    refine Finset.sum_congr rfl fun i _ => ?_
    rw [hw s i]
    simp only [hpd, div_eq_mul_inv]
    ring
  obtain ⟨j₀, hj₀⟩ : ∃ j, v j ≠ 0 := by
    by_contra hc
    push Not at hc
    have : ipQ q v v = 0 := Finset.sum_eq_zero fun j _ => by rw [hc]; ring
    rw [h1] at this
    exact one_ne_zero this
  have hv0 : 0 < ipQ q (Hs 1 0) v :=
    Finset.sum_pos' (fun j _ => mul_nonneg (hq j).le (mul_nonneg ((hpos 1).2 0 j).le (hv j))) ⟨j₀, Finset.mem_univ _, mul_pos (hq j₀) (mul_pos ((hpos 1).2 0 j₀) (lt_of_le_of_ne (hv j₀) (Ne.symm hj₀)))⟩
  have hfp : ∀ j, firstProfile α V W j = (∑ i, (W i 0 / α i) ^ 2) * Hs 1 0 j := fun j => by
    have hd := hD 0
    rw [hW0] at hd
    have := (hup 0).1 j
    rw [hW0] at this
    rw [this, mul_div_cancel₀ _ hd.ne']
    rfl
  set c := ∑ i, (W i 0 / α i) ^ 2 with hc
  have hc0 : 0 < c := by have := hD 0; rw [hW0] at this; exact this
  have hcs : ∀ s, 0 < 1 / (ipQ q (Hs (s + 1) 0) (Hs (s + 1) 0) * ∑ i, (Ws (s + 1) i 0 / α i) ^ 2) := fun s => one_div_pos.2 (mul_pos (hip0 _) (hD _))
  refine ⟨fun t => ?_, fun i j => ?_⟩
  · have key := power_rate hp hq h1 hmax (fun s => Hs (s + 1) 0) _ hcs hstep (fun s => hip0 _) (fun s => hf0 _) hv0 t
    rw [hbest, oneLoss_eq, oneLoss_eq, lossPQ_best p q V _ _ (hip0 (t + 1)) (hw t)]
    have ht : tanSq β (firstProfile α V W) v = ipQ q (Hs 1 0) (Hs 1 0) / ipQ q (Hs 1 0) v ^ 2 - 1 := by
      have a1 : (∑ j, (firstProfile α V W j / β j) ^ 2) = c ^ 2 * ipQ q (Hs 1 0) (Hs 1 0) := by
        rw [hip, Finset.mul_sum]
        exact Finset.sum_congr rfl fun j _ => by rw [hfp]; ring
      have a2 : (∑ j, (v j / β j) ^ 2) = 1 := by
        rw [← h1]
        exact Finset.sum_congr rfl fun j _ => by simp only [hqd, div_pow]; ring
      have a3 : (∑ j, firstProfile α V W j * v j / β j ^ 2) = c * ipQ q (Hs 1 0) v := by
        rw [ipQ, Finset.mul_sum]
        exact Finset.sum_congr rfl fun j _ => by rw [hfp]; simp only [hqd]; ring
      rw [tanSq, a1, a2, a3, mul_one, mul_pow, mul_div_mul_left _ _ (pow_ne_zero 2 hc0.ne')]
    rw [ht]
    convert key using 1 <;> ring
  · have key := power_limit hp hq h1 hmax (fun s => Hs (s + 1) 0) _ hcs hstep (fun s j => (hpos (s + 1)).2 0 j) (fun s => hip0 _) (fun s => hf0 _) hv0 (fun u hu0 hu1 hu2 => by
      have := hnear u hu0 hu1 hu2
      rw [show firstProfile α V W = fun j => c * Hs 1 0 j from funext hfp, ip_smul_left, ip_smul_left] at this
      exact le_of_mul_le_mul_left this hc0)
    rw [← tendsto_add_atTop_iff_nat 1]
    have hcont : Continuous fun y : Fin n → ℝ => imgQ q V y i * y j := by unfold imgQ; fun_prop
    refine (tendsto_congr fun t => ?_).2 ((hcont.tendsto v).comp key)
    simp only [Function.comp_apply]
    rw [img_smul, hw t i, mul_mul_mul_comm, div_mul_div_comm, one_mul, Real.mul_self_sqrt (hip0 (t + 1)).le]
    ring

/-- **C261, training.** For each proper start with one factor and uncertainties of product form there is a best model of one factor, non-negative and best among those of any signs, such that every run without `hold_h`, compiled or in
Python, ends at or above its loss and by at most `C / (2 (t - 1))` above it, `t` being the number of its iterations and `C` given by the start; and with modelled values as close to those of the best model as wanted if the run has enough iterations. -/
theorem C261_train {V : Mat m n ℝ} {α : Fin m → ℝ} {β : Fin n → ℝ} {W : Mat m 1 ℝ} {H : Mat 1 n ℝ} (g : GoodStart V (fun i j => α i * β j) W H) :
    ∃ (x : Fin m → ℝ) (y : Fin n → ℝ), (∀ i, 0 ≤ x i) ∧ (∀ j, 0 ≤ y j) ∧ (∀ w h, oneLoss V α β x y ≤ oneLoss V α β w h) ∧ ∀ ε : ℝ, 0 < ε → ∃ T : ℕ,
      (∀ (cfg : LoopCfg ℝ) (clock : ℕ → Bool) (rm : Bool) (rn : ℤ), cfg.holdH = false → 0 < cfg.maxIter →
        let r := lsTrain V (fun i j => α i * β j) cfg clock rm rn W H
        ∃ W' H' Q, r.factors = (some W', some H') ∧ r.q = some Q ∧ oneLoss V α β x y ≤ Q ∧ 2 * ((r.losses.length : ℝ) - 1) * (Q - oneLoss V α β x y) ≤ (oneLoss V α β 0 0 - oneLoss V α β x y) * tanSq β (firstProfile α V W) y ∧
          (T ≤ r.losses.length → ∀ i j, |W' i 0 * H' 0 j - x i * y j| < ε)) ∧
      ∀ (alpha : ℝ) (cfg : LoopCfg ℝ), 1 ≤ cfg.convergeN → cfg.holdH = false → 0 < cfg.maxIter → ∃ r, lsTrainPy V (fun i j => α i * β j) alpha cfg W H = .ok r ∧
        ∃ W' H' Q, r.factors = (some W', some H') ∧ r.losses.getLast? = some (some Q) ∧ oneLoss V α β x y ≤ Q ∧
          2 * ((r.losses.length : ℝ) - 1) * (Q - oneLoss V α β x y) ≤ (oneLoss V α β 0 0 - oneLoss V α β x y) * tanSq β (firstProfile α V W) y ∧ (T ≤ r.losses.length → ∀ i j, |W' i 0 * H' 0 j - x i * y j| < ε) := by
  obtain ⟨x, y, hx, hy, hb, hr⟩ := C261_rate g
  have hfl : ∀ cfg : LoopCfg ℝ, cfg.holdH = false → rustUpdatesH cfg = fun _ => true := fun cfg hh => by
    funext i
    simp [rustUpdatesH, hh]
  obtain ⟨Ws, Hs, h0, h1, ht, -, hu⟩ := traj_updates g fun _ => true
  obtain ⟨hrate, hlim⟩ := hr Ws Hs h0 h1 hu
  refine ⟨x, y, hx, hy, hb, fun ε hε => ?_⟩
  have hev : ∀ᶠ t in atTop, ∀ i j, |Ws t i 0 * Hs t 0 j - x i * y j| < ε := by
    rw [eventually_all]
    intro i
    rw [eventually_all]
    intro j
    exact (Metric.tendsto_nhds.1 (hlim i j)) ε hε
  obtain ⟨T, hT⟩ := eventually_atTop.1 hev
  have hrate' : ∀ t : ℕ, 1 ≤ t → 2 * ((t : ℝ) - 1) * (qLoss V (fun i j => α i * β j) (Ws t) (Hs t) - oneLoss V α β x y) ≤ (oneLoss V α β 0 0 - oneLoss V α β x y) * tanSq β (firstProfile α V W) y := fun t t1 => by
    have := hrate (t - 1)
    rw [Nat.sub_add_cancel t1, ← qLoss_one, Nat.cast_sub t1, Nat.cast_one] at this
    exact this
  refine ⟨T, fun cfg clock rm rn hh hm => ?_, fun alpha cfg hn hh hm => ?_⟩
  · intro r
    obtain ⟨t, t1, -, t3, t4, t5, -⟩ := rustLoop_spec (lsLoopStep V (weights fun i j => α i * β j)) (lsQ V fun i j => α i * β j) cfg clock (some W, some H) hm
    have hlen : r.losses.length = t := by
      rw [show r.losses = _ from t4]; simp
    rw [hfl cfg hh, ht] at t3
    rw [hfl cfg hh, lossAt, Nat.sub_add_cancel t1, ht] at t5
    refine ⟨Ws t, Hs t, _, t3, t5, ?_, ?_, fun hle => hT t (hlen ▸ hle)⟩
    · rw [qLoss_one]
      exact hb _ _
    · rw [hlen]
      exact hrate' t t1
  · obtain ⟨Ws', Hs', t, r, e, -, -, -, -, ht', hl, hls, hf, -, hc, hc'⟩ := lsTrainPy_course g alpha cfg hn
    have hsame : ∀ s, Ws' s = Ws s ∧ Hs' s = Hs s := fun s => by
      have := ht' s
      rw [hfl cfg hh, ht] at this
      simp only [Prod.mk.injEq, Option.some.injEq] at this
      exact ⟨this.1.symm, this.2.symm⟩
    have t1 : 1 ≤ t := by
      cases hcv : r.converged
      · have := hc' hcv
        omega
      · have := (hc hcv).1
        omega
    refine ⟨r, e, Ws t, Hs t, qLoss V (fun i j => α i * β j) (Ws t) (Hs t), ?_, ?_, ?_, ?_, fun hle => hT t (hl ▸ hle)⟩
    · rw [hf, (hsame t).1, (hsame t).2]
    · obtain ⟨s, rfl⟩ : ∃ s, t = s + 1 := ⟨t - 1, by omega⟩
      rw [hls, List.range_succ, List.map_append]
      simp [hsame]
    · rw [qLoss_one]
      exact hb _ _
    · rw [hl]
      exact hrate' t t1

end runs

/-- **C261, other uncertainties.** Without the product form the claim fails: two samples, two features and one factor, uncertainty 1 on the diagonal and 1/2 off it. Every compiled run returns this positive start unchanged, with a loss of 8/5; another
non-negative model with one factor has a loss of 1. -/
theorem C261_product_needed : ∃ (V U : Mat 2 2 ℝ) (W : Mat 2 1 ℝ) (H : Mat 1 2 ℝ), GoodStart V U W H ∧
    (∀ (cfg : LoopCfg ℝ) (clock : ℕ → Bool) (rm : Bool) (rn : ℤ), (lsTrain V U cfg clock rm rn W H).factors = (some W, some H)) ∧
    (∑ i, ∑ j, ((V i j - W i 0 * H 0 j) / U i j) ^ 2) = 8 / 5 ∧ ∃ w h : Fin 2 → ℝ, (∀ i, 0 ≤ w i) ∧ (∀ j, 0 ≤ h j) ∧ (∑ i, ∑ j, ((V i j - w i * h j) / U i j) ^ 2) = 1 := by
  set V : Mat 2 2 ℝ := fun i j => if i = j then 1 else 0 with hV
  set U : Mat 2 2 ℝ := fun i j => if i = j then 1 else 1 / 2 with hU
  have hu : ∀ hold, lsUpdate V (weights U) hold (fun _ _ => 1 : Mat 2 1 ℝ) (fun _ _ => 1 / 5 : Mat 1 2 ℝ) = some (fun _ _ => 1, fun _ _ => 1 / 5) := by
    have hn : ∀ a j, lsHNum V (weights U) (fun _ _ => 1 : Mat 2 1 ℝ) a j = 1 := by
      intro a j
      fin_cases j <;> simp [lsHNum, mmul, tr, emul, weights, hV, hU, Fin.sum_univ_two]
    have hd : ∀ a j, lsHDen (weights U) (fun _ _ => 1 : Mat 2 1 ℝ) (fun _ _ => 1 / 5 : Mat 1 2 ℝ) a j = 1 := by
      intro a j
      fin_cases j <;> simp [lsHDen, mmul, tr, emul, weights, hU, Fin.sum_univ_two] <;> norm_num
    have wn : ∀ i a, lsWNum V (weights U) (fun _ _ => 1 / 5 : Mat 1 2 ℝ) i a = 1 / 5 := by
      intro i a
      fin_cases i <;> simp [lsWNum, mmul, tr, emul, weights, hV, hU, Fin.sum_univ_two]
    have wd : ∀ i a, lsWDen (weights U) (fun _ _ => 1 : Mat 2 1 ℝ) (fun _ _ => 1 / 5 : Mat 1 2 ℝ) i a = 1 / 5 := by
      intro i a
      fin_cases i <;> simp [lsWDen, mmul, tr, emul, weights, hU, Fin.sum_univ_two] <;> norm_num
    have h1 : lsStepH V (weights U) (fun _ _ => 1 : Mat 2 1 ℝ) (fun _ _ => 1 / 5 : Mat 1 2 ℝ) = some fun _ _ => 1 / 5 := by
      refine lsStepH_eq_some.2 ⟨fun a j => ?_, fun a j => ?_⟩
      · rw [hd]; norm_num
      · rw [hn, hd]; norm_num
    have h2 : lsStepW V (weights U) (fun _ _ => 1 : Mat 2 1 ℝ) (fun _ _ => 1 / 5 : Mat 1 2 ℝ) = some fun _ _ => 1 := by
      refine lsStepW_eq_some.2 ⟨fun a j => ?_, fun a j => ?_⟩
      · rw [wd]; norm_num
      · rw [wn, wd]; norm_num
    intro hold
    cases hold
    · exact lsUpdate_eq_some.2 ⟨.inr ⟨rfl, h1⟩, h2⟩
    · exact lsUpdate_eq_some.2 ⟨.inl ⟨rfl, rfl⟩, h2⟩
  have hg : GoodStart V U (fun _ _ => 1 : Mat 2 1 ℝ) (fun _ _ => 1 / 5) :=
    ⟨by norm_num, by norm_num, fun i j => by simp only [hV]; split <;> norm_num, fun i => ⟨i, by simp [hV]⟩, fun j => ⟨j, by simp [hV]⟩, fun i j => by simp only [hU]; split <;> norm_num, fun _ _ => by norm_num, fun _ _ => by norm_num⟩
  refine ⟨V, U, fun _ _ => 1, fun _ _ => 1 / 5, hg, fun cfg clock rm rn => ?_, ?_, ![1, 0], ![1, 0], ?_, ?_, ?_⟩
  · obtain ⟨hf, -⟩ := rustLoop_factors (lsLoopStep V (weights U)) (lsQ V U) cfg clock (some fun _ _ => 1, some fun _ _ => 1 / 5)
    obtain ⟨Ws, Hs, h0, h1, ht, -, hs⟩ := traj_updates hg (rustUpdatesH cfg)
    have hall : ∀ t, Ws t = (fun _ _ => 1) ∧ Hs t = fun _ _ => 1 / 5 := by
      intro t
      induction t with
      | zero => exact ⟨h0, h1⟩
      | succ t ih =>
        have := hs t
        rw [ih.1, ih.2, hu] at this
        have := Option.some.inj this
        exact ⟨(congrArg Prod.fst this).symm, (congrArg Prod.snd this).symm⟩
    rw [ht, (hall _).1, (hall _).2] at hf
    exact hf
  · simp [hV, hU, Fin.sum_univ_two]
    norm_num
  · intro i; fin_cases i <;> simp
  · intro i; fin_cases i <;> simp
  · simp [hV, hU, Fin.sum_univ_two]

/-- Two samples and two features with uncertainties `(1, 2) × (1, 3)`. -/
theorem caseProduct : GoodStart (![![3, 1], ![1, 2]] : Mat 2 2 ℝ) (fun i j => (![1, 2] : Fin 2 → ℝ) i * (![1, 3] : Fin 2 → ℝ) j) (fun _ _ => 1 : Mat 2 1 ℝ) (fun _ _ => 1) where
  rows := by norm_num
  cols := by norm_num
  data i j := by fin_cases i <;> fin_cases j <;> simp
  row i := ⟨0, by fin_cases i <;> simp⟩
  col j := ⟨0, by fin_cases j <;> simp⟩
  unc i j := by fin_cases i <;> fin_cases j <;> simp
  w _ _ := one_pos
  h _ _ := one_pos

example := C261_train caseProduct
example := C261_rate caseProduct

end Esat
