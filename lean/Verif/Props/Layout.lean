import Verif.Model.Layout
import Mathlib.Data.Nat.Init
import Mathlib.Tactic.Ring

/-!
# Property C17: memory layout
-/

namespace Esat

variable {K : Type*}

/-- Specification: two matrices agree on an `m × n` shape. -/
def SameOn (m n : ℕ) (A B : ℕ → ℕ → K) : Prop := ∀ i, i < m → ∀ j, j < n → A i j = B i j

/-- Specification: a computation looks only at the entries inside the shapes `m × n`, `m × k`, `k × n`. -/
def LooksInside (m n k : ℕ) (core : (V U We W H : ℕ → ℕ → K) → (ℕ → ℕ → K) × (ℕ → ℕ → K)) : Prop :=
  ∀ V V' U U' We We' W W' H H', SameOn m n V V' → SameOn m n U U' → SameOn m n We We' → SameOn m k W W' →
    SameOn k n H H' →
    SameOn m k (core V U We W H).1 (core V' U' We' W' H').1 ∧ SameOn k n (core V U We W H).2 (core V' U' We' W' H').2

theorem flat_lt {i j m n : ℕ} (hi : i < m) (hj : j < n) : (j * m + i) % m = i ∧ (j * m + i) / m = j := by
  have hm : 0 < m := by omega
  rw [Nat.add_comm, Nat.add_mul_mod_self_right, Nat.mod_eq_of_lt hi, Nat.add_mul_div_right _ _ hm,
    Nat.div_eq_of_lt hi, Nat.zero_add]
  exact ⟨rfl, rfl⟩

/-- C17 (data matrices): the compiled code sees the data as given if it is column-major. -/
theorem C17_data_colMajor_partial (a : NdArr K) (h : a.order = .colMajor) :
    SameOn a.rows a.cols (readData a) a.val := by
  intro i hi j hj
  obtain ⟨h1, h2⟩ := flat_lt hi hj
  simp [readData, naFromVec, NdArr.mem, h, h1, h2]

/-- C17 (factor matrices): the compiled code sees W and H as given if they are row-major. -/
theorem C17_factor_rowMajor_partial (a : NdArr K) (h : a.order = .rowMajor) :
    SameOn a.rows a.cols (readFactor a) a.val := by
  intro i hi j hj
  obtain ⟨h1, h2⟩ := flat_lt hj hi
  simp [readFactor, naFromVec, NdArr.mem, h, h1, h2]

/-- C17 (results): the factors are handed back with the right contents, as column-major arrays. -/
theorem C17_result_contents_partial (rows cols : ℕ) (M : ℕ → ℕ → K) :
    SameOn rows cols (returnFactor rows cols M).val M ∧ (returnFactor rows cols M).order = .colMajor ∧
    (returnFactor rows cols M).rows = rows ∧ (returnFactor rows cols M).cols = cols := by
  refine ⟨?_, rfl, rfl, rfl⟩
  intro i hi j hj
  obtain ⟨h1, h2⟩ := flat_lt hi hj
  have h3 : (j * rows + i) / cols * cols + (j * rows + i) % cols = j * rows + i := by
    have := Nat.div_add_mod (j * rows + i) cols
    rw [Nat.mul_comm] at this
    exact this
  simp only [returnFactor, NdArr.mem]
  rw [h3, h1, h2]

/-- C17 for the layouts that work: column-major V, U, We and row-major W, H give the factors computed from the logical
contents. Missing: the other orders, where the statement is false (`C17_refuted`), and repeated calls
(`C17_retrain_refuted`). -/
theorem C17_train_partial (m n k : ℕ) (core : (V U We W H : ℕ → ℕ → K) → (ℕ → ℕ → K) × (ℕ → ℕ → K))
    (hcore : LooksInside m n k core) (V U We W H : NdArr K)
    (hV : V.rows = m ∧ V.cols = n ∧ V.order = .colMajor) (hU : U.rows = m ∧ U.cols = n ∧ U.order = .colMajor)
    (hWe : We.rows = m ∧ We.cols = n ∧ We.order = .colMajor) (hW : W.rows = m ∧ W.cols = k ∧ W.order = .rowMajor)
    (hH : H.rows = k ∧ H.cols = n ∧ H.order = .rowMajor) :
    SameOn m k (compiledTrain core V U We W H).1.val (core V.val U.val We.val W.val H.val).1 ∧
    SameOn k n (compiledTrain core V U We W H).2.val (core V.val U.val We.val W.val H.val).2 := by
  obtain ⟨v1, v2, v3⟩ := hV
  obtain ⟨u1, u2, u3⟩ := hU
  obtain ⟨e1, e2, e3⟩ := hWe
  obtain ⟨w1, w2, w3⟩ := hW
  obtain ⟨h1, h2, h3⟩ := hH
  have a1 := C17_data_colMajor_partial V v3
  have a2 := C17_data_colMajor_partial U u3
  have a3 := C17_data_colMajor_partial We e3
  have a4 := C17_factor_rowMajor_partial W w3
  have a5 := C17_factor_rowMajor_partial H h3
  rw [v1, v2] at a1; rw [u1, u2] at a2; rw [e1, e2] at a3; rw [w1, w2] at a4; rw [h1, h2] at a5
  obtain ⟨b1, b2⟩ := hcore _ _ _ _ _ _ _ _ _ _ a1 a2 a3 a4 a5
  have r1 := (C17_result_contents_partial W.rows W.cols
    (core (readData V) (readData U) (readData We) (readFactor W) (readFactor H)).1).1
  have r2 := (C17_result_contents_partial H.rows H.cols
    (core (readData V) (readData U) (readData We) (readFactor W) (readFactor H)).2).1
  rw [w1, w2] at r1; rw [h1, h2] at r2
  constructor
  · intro i hi j hj
    have := r1 i hi j hj
    simp only [compiledTrain, w1, w2]
    rw [this, b1 i hi j hj]
  · intro i hi j hj
    have := r2 i hi j hj
    simp only [compiledTrain, h1, h2]
    rw [this, b2 i hi j hj]

/-- Non-vacuity of `C17_train_partial`: a core that adds the data to the factors looks inside the shapes. -/
example : LooksInside (K := ℤ) 2 3 2
    (fun V U _ W H => (fun i a => W i a + V i 0 * U i 1, fun a j => H a j * V 0 j)) := by
  intro V V' U U' We We' W W' H H' hV hU hWe hW hH
  refine ⟨fun i hi a ha => ?_, fun a ha j hj => ?_⟩
  · simp only [hW i hi a ha, hV i hi 0 (by omega), hU i hi 1 (by omega)]
  · simp only [hH a ha j hj, hV 0 (by omega) j hj]

/-- C17 fails for row-major data of every shape with at least two rows and two columns: the compiled code computes with a
different matrix, although the column-major array with the same contents is read correctly. -/
theorem C17_refuted (m n : ℕ) (hm : 2 ≤ m) (hn : 2 ≤ n) :
    ∃ val : ℕ → ℕ → ℤ,
      SameOn m n (readData { rows := m, cols := n, order := .colMajor, val := val }) val ∧
      ¬ SameOn m n (readData { rows := m, cols := n, order := .rowMajor, val := val }) val := by
  refine ⟨fun i j => if i = 0 ∧ j = 1 then 1 else 0,
    C17_data_colMajor_partial { rows := m, cols := n, order := .colMajor, val := _ } rfl, fun h => ?_⟩
  have := h 0 (by omega) 1 (by omega)
  simp only [readData, naFromVec, NdArr.mem, Nat.one_mul, Nat.add_zero] at this
  have hne : ¬ (m / n = 0 ∧ m % n = 1) := by
    rintro ⟨h1, h2⟩
    have := Nat.div_add_mod m n
    rw [h1, h2] at this
    omega
  rw [if_neg hne] at this
  simp at this

/-- C17 fails for column-major W or H of every shape with at least two rows and two columns. -/
theorem C17_factor_colMajor_refuted (m k : ℕ) (hm : 2 ≤ m) (hk : 2 ≤ k) :
    ∃ val : ℕ → ℕ → ℤ, ¬ SameOn m k (readFactor { rows := m, cols := k, order := .colMajor, val := val }) val := by
  refine ⟨fun i j => if i = 1 ∧ j = 0 then 1 else 0, fun h => ?_⟩
  have := h 1 (by omega) 0 (by omega)
  simp only [readFactor, naFromVec, NdArr.mem, Nat.one_mul, Nat.add_zero] at this
  have hne : ¬ (k % m = 1 ∧ k / m = 0) := by
    rintro ⟨h2, h1⟩
    have := Nat.div_add_mod k m
    rw [h1, h2] at this
    omega
  rw [if_neg hne] at this
  simp at this

/-- C17 fails for repeated training: the array returned by the first call is column-major, so a second call starts from
scrambled factors, for every shape with at least two samples and two factors. -/
theorem C17_retrain_refuted (m k : ℕ) (hm : 2 ≤ m) (hk : 2 ≤ k) :
    ∃ W : ℕ → ℕ → ℤ, SameOn m k (returnFactor m k W).val W ∧ ¬ SameOn m k (readFactor (returnFactor m k W)) W := by
  have e : ∀ W : ℕ → ℕ → ℤ, SameOn m k (returnFactor m k W).val W := fun W => (C17_result_contents_partial m k W).1
  refine ⟨fun i j => if i = 1 ∧ j = 0 then 1 else 0, e _, fun h => ?_⟩
  have h1 := h 1 (by omega) 0 (by omega)
  have hkm : k / m < k := Nat.div_lt_self (by omega) (by omega)
  have hk' : k % m < m := Nat.mod_lt _ (by omega)
  have h2 : readFactor (returnFactor m k fun i j => if i = 1 ∧ j = 0 then (1 : ℤ) else 0) 1 0
      = (returnFactor m k fun i j => if i = 1 ∧ j = 0 then (1 : ℤ) else 0).val (k % m) (k / m) := by
    simp only [readFactor, naFromVec, NdArr.mem]
    simp only [returnFactor, Nat.one_mul, Nat.add_zero]
  rw [h2, e _ (k % m) hk' (k / m) hkm] at h1
  have hne : ¬ (k % m = 1 ∧ k / m = 0) := by
    rintro ⟨h2, h1⟩
    have := Nat.div_add_mod k m
    rw [h1, h2] at this
    omega
  rw [if_neg hne] at h1
  simp at h1

/-- C17: one-row or one-column arrays are read correctly in both orders. -/
theorem C17_vectors_partial (a : NdArr K) (h : a.rows = 1 ∨ a.cols = 1) :
    SameOn a.rows a.cols (readData a) a.val ∧ SameOn a.rows a.cols (readFactor a) a.val := by
  constructor
  · intro i hi j hj
    obtain ⟨h1, h2⟩ := flat_lt hi hj
    cases ho : a.order with
    | colMajor => exact C17_data_colMajor_partial a ho i hi j hj
    | rowMajor =>
      simp only [readData, naFromVec, NdArr.mem, ho]
      rcases h with h | h
      · have : i = 0 := by omega
        subst this
        rw [h, Nat.mul_one, Nat.add_zero, Nat.div_eq_of_lt hj, Nat.mod_eq_of_lt hj]
      · have : j = 0 := by omega
        subst this
        rw [h, Nat.zero_mul, Nat.zero_add, Nat.div_one, Nat.mod_one]
  · intro i hi j hj
    cases ho : a.order with
    | rowMajor => exact C17_factor_rowMajor_partial a ho i hi j hj
    | colMajor =>
      simp only [readFactor, naFromVec, NdArr.mem, ho]
      rcases h with h | h
      · have : i = 0 := by omega
        subst this
        rw [h, Nat.zero_mul, Nat.zero_add, Nat.div_one, Nat.mod_one]
      · have : j = 0 := by omega
        subst this
        rw [h, Nat.mul_one, Nat.add_zero, Nat.div_eq_of_lt hi, Nat.mod_eq_of_lt hi]

/-- Case for `C17_factor_rowMajor_partial` and `C17_vectors_partial`: a 2×3 factor in row-major order, and one row of data
in row-major order. -/
example : SameOn 2 3 (readFactor (⟨2, 3, .rowMajor, fun i j => 10 * i + j⟩ : NdArr ℕ)) (fun i j => 10 * i + j) ∧
    SameOn 1 3 (readData (⟨1, 3, .rowMajor, fun i j => 10 * i + j⟩ : NdArr ℕ)) (fun i j => 10 * i + j) :=
  ⟨C17_factor_rowMajor_partial ⟨2, 3, .rowMajor, _⟩ rfl, (C17_vectors_partial ⟨1, 3, .rowMajor, _⟩ (Or.inl rfl)).1⟩

/-- C17, exactly: an array is read correctly as data iff it is column-major or its elements, listed column by column, are those listed row by row; the same for factors with row-major. Missing: the other arrays, for which the
statement is false. -/
theorem C17_iff_partial (a : NdArr K) :
    (SameOn a.rows a.cols (readData a) a.val ↔ a.order = .colMajor ∨ ∀ p, p < a.rows * a.cols → a.val (p % a.rows) (p / a.rows) = a.val (p / a.cols) (p % a.cols)) ∧
    (SameOn a.rows a.cols (readFactor a) a.val ↔ a.order = .rowMajor ∨ ∀ p, p < a.rows * a.cols → a.val (p % a.rows) (p / a.rows) = a.val (p / a.cols) (p % a.cols)) := by
  have pos : ∀ p, p < a.rows * a.cols → p % a.rows < a.rows ∧ p / a.rows < a.cols ∧ p / a.cols < a.rows ∧ p % a.cols < a.cols := fun p hp => by
    have h1 : 0 < a.rows := Nat.pos_of_ne_zero fun h => by rw [h, Nat.zero_mul] at hp; omega
    have h2 : 0 < a.cols := Nat.pos_of_ne_zero fun h => by rw [h, Nat.mul_zero] at hp; omega
    exact ⟨Nat.mod_lt _ h1, Nat.div_lt_of_lt_mul hp, Nat.div_lt_of_lt_mul (by rwa [Nat.mul_comm]), Nat.mod_lt _ h2⟩
  have bound : ∀ {i j m n : ℕ}, i < m → j < n → j * m + i < m * n := fun {i j m n} hi hj =>
    calc j * m + i < j * m + m := by omega
      _ = m * (j + 1) := by ring
      _ ≤ m * n := Nat.mul_le_mul_left _ hj
  constructor
  · cases ho : a.order with
    | colMajor => exact ⟨fun _ => .inl rfl, fun _ => C17_data_colMajor_partial a ho⟩
    | rowMajor =>
      simp only [reduceCtorEq, false_or]
      constructor
      · intro h p hp
        obtain ⟨p1, p2, -, -⟩ := pos p hp
        have := h _ p1 _ p2
        simp only [readData, naFromVec, NdArr.mem, ho] at this
        rw [Nat.mul_comm, Nat.div_add_mod] at this
        exact this.symm
      · intro h i hi j hj
        obtain ⟨h1, h2⟩ := flat_lt hi hj
        have := h _ (bound hi hj)
        rw [h1, h2] at this
        simp only [readData, naFromVec, NdArr.mem, ho]
        exact this.symm
  · cases ho : a.order with
    | rowMajor => exact ⟨fun _ => .inl rfl, fun _ => C17_factor_rowMajor_partial a ho⟩
    | colMajor =>
      simp only [reduceCtorEq, false_or]
      constructor
      · intro h p hp
        obtain ⟨-, -, p1, p2⟩ := pos p hp
        have := h _ p1 _ p2
        simp only [readFactor, naFromVec, NdArr.mem, ho] at this
        rwa [Nat.mul_comm, Nat.div_add_mod] at this
      · intro h i hi j hj
        obtain ⟨h1, h2⟩ := flat_lt hj hi
        have := h (i * a.cols + j) (by rw [Nat.mul_comm a.rows]; exact bound hj hi)
        rw [h1, h2] at this
        simp only [readFactor, naFromVec, NdArr.mem, ho]
        exact this

/-- C17, square arrays: with as many samples as features, row-major data are read correctly iff they are symmetric. -/
theorem C17_square_partial (a : NdArr K) (h : a.rows = a.cols) (ho : a.order = .rowMajor) :
    SameOn a.rows a.cols (readData a) a.val ↔ ∀ i, i < a.cols → ∀ j, j < a.cols → a.val i j = a.val j i := by
  have e : ∀ i j, i < a.rows → j < a.cols → readData a i j = a.val j i := fun i j hi hj => by
    obtain ⟨h1, h2⟩ := flat_lt hi hj
    simp only [readData, naFromVec, NdArr.mem, ho]
    rw [← h, h1, h2]
  constructor
  · intro hs i hi j hj
    rw [← hs i (by omega) j hj, e i j (by omega) hj]
  · intro hs i hi j hj
    rw [e i j hi hj, hs j hj i (by omega)]

/-- C17, shapes: all arrays of a shape are read correctly in both orders iff the shape has at most one row or at most one column. -/
theorem C17_shape_iff_partial (m n : ℕ) :
    (∀ (o : Order) (val : ℕ → ℕ → ℤ), SameOn m n (readData ⟨m, n, o, val⟩) val ∧ SameOn m n (readFactor ⟨m, n, o, val⟩) val) ↔ m ≤ 1 ∨ n ≤ 1 := by
  constructor
  · intro h
    by_contra hc
    obtain ⟨val, -, hv⟩ := C17_refuted m n (by omega) (by omega)
    exact hv (h _ _).1
  · intro h o val
    by_cases h0 : m = 0 ∨ n = 0
    · constructor <;> intro i hi j hj <;> omega
    · exact C17_vectors_partial ⟨m, n, o, val⟩ (by simp only; omega)

/-- Case for `C17_iff_partial` and `C17_square_partial`: a symmetric row-major 2×2 array is read correctly. -/
example : SameOn 2 2 (readData (⟨2, 2, .rowMajor, fun i j => i + j⟩ : NdArr ℕ)) (fun i j => i + j) :=
  (C17_square_partial ⟨2, 2, .rowMajor, fun i j => i + j⟩ rfl rfl).2 fun i _ j _ => Nat.add_comm i j

end Esat
