import Verif.Simd.Ramps

/-! # Buffer operations (C69) -/
namespace Verif.Simd

/-! ### Element by element

`Becomes m m' out n g` (Lemmas.lean): the elements `0 .. n-1` at `out` are `g 0, .., g (n-1)` and every other address is as before. -/

/-- `gain`: every element becomes the product of the two inputs, nothing else changes, for any size and alignment, and the scalar version gives the
same memory. -/
theorem gain {m : Mem} {size : Nat} (gain input output : Int) (ho : Buffer m output size) (hg : Buffer m gain size) (ag : Apart gain output size) (hi : Buffer m input size) (ai : Apart input output size) :
    ∃ m', gainSSE gain input output size m = some m' ∧ gainScalar gain input output size m = some m' ∧
      Becomes m m' output size (fun j => item m gain j * item m input j) := by
  have hi : ∀ p ∈ ([gain, input] : List Int), Buffer m p size ∧ Apart p output size := by
    simp only [List.forall_mem_cons, List.not_mem_nil, false_imp_iff, implies_true, and_true]; exact ⟨⟨hg, ag⟩, ⟨hi, ai⟩⟩
  exact ⟨_, elementwise_ok ho hi (by simp) (fun k hk => by simp only [List.forall_mem_cons, List.not_mem_nil, false_imp_iff, implies_true, and_true] at hk ⊢; omega), elementwiseScalar_ok ho hi, filled_becomes _ _ _ _⟩

/-- `gain1`: every element becomes the input times the gain, nothing else changes, for any size and alignment, and the scalar version gives the
same memory. -/
theorem gain1 {m : Mem} {size : Nat} (gain : ℚ) (input output : Int) (ho : Buffer m output size) (hi : Buffer m input size) (ai : Apart input output size) :
    ∃ m', gain1SSE gain input output size m = some m' ∧ gain1Scalar gain input output size m = some m' ∧
      Becomes m m' output size (fun j => gain * item m input j) := by
  have hi : ∀ p ∈ ([input] : List Int), Buffer m p size ∧ Apart p output size := by
    simp only [List.forall_mem_cons, List.not_mem_nil, false_imp_iff, implies_true, and_true]; exact ⟨hi, ai⟩
  exact ⟨_, elementwise_ok ho hi (by simp) (fun k hk => by simp only [List.forall_mem_cons, List.not_mem_nil, false_imp_iff, implies_true, and_true] at hk ⊢; omega), elementwiseScalar_ok ho hi, filled_becomes _ _ _ _⟩

/-- `multiplyAdd1`: every element becomes the old content plus the input times the gain, nothing else changes, for any size and alignment, and the scalar version gives the
same memory. -/
theorem multiplyAdd1 {m : Mem} {size : Nat} (gain : ℚ) (input output : Int) (ho : Buffer m output size) (hi : Buffer m input size) (ai : Apart input output size) :
    ∃ m', multiplyAdd1SSE gain input output size m = some m' ∧ multiplyAdd1Scalar gain input output size m = some m' ∧
      Becomes m m' output size (fun j => item m output j + gain * item m input j) := by
  have hi : ∀ p ∈ ([input] : List Int), Buffer m p size ∧ Apart p output size := by
    simp only [List.forall_mem_cons, List.not_mem_nil, false_imp_iff, implies_true, and_true]; exact ⟨hi, ai⟩
  exact ⟨_, elementwise_ok ho hi (by simp) (fun k hk => by simp only [List.forall_mem_cons, List.not_mem_nil, false_imp_iff, implies_true, and_true] at hk ⊢; omega), elementwiseScalar_ok ho hi, filled_becomes _ _ _ _⟩

/-- `multiplyMul1`: every element becomes the old content times the input times the gain, nothing else changes, for any size and alignment, and the scalar version gives the
same memory. -/
theorem multiplyMul1 {m : Mem} {size : Nat} (gain : ℚ) (input output : Int) (ho : Buffer m output size) (hi : Buffer m input size) (ai : Apart input output size) :
    ∃ m', multiplyMul1SSE gain input output size m = some m' ∧ multiplyMul1Scalar gain input output size m = some m' ∧
      Becomes m m' output size (fun j => item m output j * (gain * item m input j)) := by
  have hi : ∀ p ∈ ([input] : List Int), Buffer m p size ∧ Apart p output size := by
    simp only [List.forall_mem_cons, List.not_mem_nil, false_imp_iff, implies_true, and_true]; exact ⟨hi, ai⟩
  exact ⟨_, elementwise_ok ho hi (by simp) (fun k hk => by simp only [List.forall_mem_cons, List.not_mem_nil, false_imp_iff, implies_true, and_true] at hk ⊢; omega), elementwiseScalar_ok ho hi, filled_becomes _ _ _ _⟩

/-- `add`: every element becomes the old content plus the input, nothing else changes, for any size and alignment, and the scalar version gives the
same memory. -/
theorem add {m : Mem} {size : Nat} (input output : Int) (ho : Buffer m output size) (hi : Buffer m input size) (ai : Apart input output size) :
    ∃ m', addSSE input output size m = some m' ∧ addScalar input output size m = some m' ∧
      Becomes m m' output size (fun j => item m output j + item m input j) := by
  have hi : ∀ p ∈ ([input] : List Int), Buffer m p size ∧ Apart p output size := by
    simp only [List.forall_mem_cons, List.not_mem_nil, false_imp_iff, implies_true, and_true]; exact ⟨hi, ai⟩
  exact ⟨_, elementwise_ok ho hi (by simp) (fun k hk => by simp only [List.forall_mem_cons, List.not_mem_nil, false_imp_iff, implies_true, and_true] at hk ⊢; omega), elementwiseScalar_ok ho hi, filled_becomes _ _ _ _⟩

/-- `add1`: every element becomes the old content plus the value, nothing else changes, for any size and alignment, and the scalar version gives the
same memory. -/
theorem add1 {m : Mem} {size : Nat} (value : ℚ) (output : Int) (ho : Buffer m output size)  :
    ∃ m', add1SSE value output size m = some m' ∧ add1Scalar value output size m = some m' ∧
      Becomes m m' output size (fun j => item m output j + value) := by
  have hi : ∀ p ∈ ([] : List Int), Buffer m p size ∧ Apart p output size := by
    simp
  exact ⟨_, elementwise_ok ho hi (by simp) (fun k hk => by simp only [List.forall_mem_cons, List.not_mem_nil, false_imp_iff, implies_true, and_true] at hk ⊢; omega), elementwiseScalar_ok ho hi, filled_becomes _ _ _ _⟩

/-- `subtract`: every element becomes the old content minus the input, nothing else changes, for any size and alignment, and the scalar version gives the
same memory. -/
theorem subtract {m : Mem} {size : Nat} (input output : Int) (ho : Buffer m output size) (hi : Buffer m input size) (ai : Apart input output size) :
    ∃ m', subtractSSE input output size m = some m' ∧ subtractScalar input output size m = some m' ∧
      Becomes m m' output size (fun j => item m output j - item m input j) := by
  have hi : ∀ p ∈ ([input] : List Int), Buffer m p size ∧ Apart p output size := by
    simp only [List.forall_mem_cons, List.not_mem_nil, false_imp_iff, implies_true, and_true]; exact ⟨hi, ai⟩
  exact ⟨_, elementwise_ok ho hi (by simp) (fun k hk => by simp only [List.forall_mem_cons, List.not_mem_nil, false_imp_iff, implies_true, and_true] at hk ⊢; omega), elementwiseScalar_ok ho hi, filled_becomes _ _ _ _⟩

/-- `subtract1`: every element becomes the old content minus the value, nothing else changes, for any size and alignment, and the scalar version gives the
same memory. -/
theorem subtract1 {m : Mem} {size : Nat} (value : ℚ) (output : Int) (ho : Buffer m output size)  :
    ∃ m', subtract1SSE value output size m = some m' ∧ subtract1Scalar value output size m = some m' ∧
      Becomes m m' output size (fun j => item m output j - value) := by
  have hi : ∀ p ∈ ([] : List Int), Buffer m p size ∧ Apart p output size := by
    simp
  exact ⟨_, elementwise_ok ho hi (by simp) (fun k hk => by simp only [List.forall_mem_cons, List.not_mem_nil, false_imp_iff, implies_true, and_true] at hk ⊢; omega), elementwiseScalar_ok ho hi, filled_becomes _ _ _ _⟩

/-- `copy`: every element becomes the input, nothing else changes, for any size and alignment, and the scalar version gives the
same memory. -/
theorem copy {m : Mem} {size : Nat} (input output : Int) (ho : Buffer m output size) (hi : Buffer m input size) (ai : Apart input output size) :
    ∃ m', copySSE input output size m = some m' ∧ copyScalar input output size m = some m' ∧
      Becomes m m' output size (fun j => item m input j) := by
  have hi : ∀ p ∈ ([input] : List Int), Buffer m p size ∧ Apart p output size := by
    simp only [List.forall_mem_cons, List.not_mem_nil, false_imp_iff, implies_true, and_true]; exact ⟨hi, ai⟩
  exact ⟨_, elementwise_ok ho hi (by simp) (fun k hk => by simp only [List.forall_mem_cons, List.not_mem_nil, false_imp_iff, implies_true, and_true] at hk ⊢; omega), elementwiseScalar_ok ho hi, filled_becomes _ _ _ _⟩

/-- `divide`: every element becomes the quotient of the two inputs, nothing else changes, for any size and alignment, and the scalar version gives the
same memory. Missing: the alignment of the divisor is not looked at, so it has to be that of the output (`divide_misaligned_violated`). -/
theorem divide_partial {m : Mem} {size : Nat} (input divisor output : Int) (ho : Buffer m output size) (hi : Buffer m input size) (ai : Apart input output size) (hd : Buffer m divisor size) (ad : Apart divisor output size) (same : divisor % 4 = output % 4) :
    ∃ m', divideSSE input divisor output size m = some m' ∧ divideScalar input divisor output size m = some m' ∧
      Becomes m m' output size (fun j => item m input j / item m divisor j) := by
  have hi : ∀ p ∈ ([input, divisor] : List Int), Buffer m p size ∧ Apart p output size := by
    simp only [List.forall_mem_cons, List.not_mem_nil, false_imp_iff, implies_true, and_true]; exact ⟨⟨hi, ai⟩, ⟨hd, ad⟩⟩
  exact ⟨_, elementwise_ok ho hi (by simp) (fun k hk => by simp only [List.forall_mem_cons, List.not_mem_nil, false_imp_iff, implies_true, and_true] at hk ⊢; omega), elementwiseScalar_ok ho hi, filled_becomes _ _ _ _⟩

/-- `multiplyAdd`: every element becomes the old content plus the product of the inputs, nothing else changes, for any size and alignment, and the scalar version gives the
same memory. Missing: the alignment of the gain is not looked at, so it has to be that of the output (`multiplyAdd_misaligned_violated`). -/
theorem multiplyAdd_partial {m : Mem} {size : Nat} (gain input output : Int) (ho : Buffer m output size) (hg : Buffer m gain size) (ag : Apart gain output size) (hi : Buffer m input size) (ai : Apart input output size) (same : gain % 4 = output % 4) :
    ∃ m', multiplyAddSSE gain input output size m = some m' ∧ multiplyAddScalar gain input output size m = some m' ∧
      Becomes m m' output size (fun j => item m output j + item m gain j * item m input j) := by
  have hi : ∀ p ∈ ([gain, input] : List Int), Buffer m p size ∧ Apart p output size := by
    simp only [List.forall_mem_cons, List.not_mem_nil, false_imp_iff, implies_true, and_true]; exact ⟨⟨hg, ag⟩, ⟨hi, ai⟩⟩
  exact ⟨_, elementwise_ok ho hi (by simp) (fun k hk => by simp only [List.forall_mem_cons, List.not_mem_nil, false_imp_iff, implies_true, and_true] at hk ⊢; omega), elementwiseScalar_ok ho hi, filled_becomes _ _ _ _⟩

/-- `multiplyMul`: every element becomes the old content times the product of the inputs, nothing else changes, for any size and alignment, and the scalar version gives the
same memory. Missing: the alignment of the gain is not looked at, so it has to be that of the output (`multiplyMul_misaligned_violated`). -/
theorem multiplyMul_partial {m : Mem} {size : Nat} (gain input output : Int) (ho : Buffer m output size) (hg : Buffer m gain size) (ag : Apart gain output size) (hi : Buffer m input size) (ai : Apart input output size) (same : gain % 4 = output % 4) :
    ∃ m', multiplyMulSSE gain input output size m = some m' ∧ multiplyMulScalar gain input output size m = some m' ∧
      Becomes m m' output size (fun j => item m output j * (item m gain j * item m input j)) := by
  have hi : ∀ p ∈ ([gain, input] : List Int), Buffer m p size ∧ Apart p output size := by
    simp only [List.forall_mem_cons, List.not_mem_nil, false_imp_iff, implies_true, and_true]; exact ⟨⟨hg, ag⟩, ⟨hi, ai⟩⟩
  exact ⟨_, elementwise_ok ho hi (by simp) (fun k hk => by simp only [List.forall_mem_cons, List.not_mem_nil, false_imp_iff, implies_true, and_true] at hk ⊢; omega), elementwiseScalar_ok ho hi, filled_becomes _ _ _ _⟩

/-- `clampAll`: every element is brought between the bounds. -/
theorem clampAll {m : Mem} {size : Nat} (input : Int) (low high : ℚ) (hb : low ≤ high) (hi : Buffer m input size) :
    ∃ m', clampAllSSE input low high size m = some m' ∧ clampAllScalar input low high size m = some m' ∧
      Becomes m m' input size (fun j => max low (min high (item m input j))) := by
  have h : ∀ p ∈ ([] : List Int), Buffer m p size ∧ Apart p input size := by simp
  have e : newItem m [] input (fun _ y => clamp1 low high y) = fun j => max low (min high (item m input j)) := by
    funext j
    simp only [newItem, clamp1]
    generalize item m input j = x
    by_cases h1 : x > high
    · rw [if_pos h1, min_eq_left h1.le, if_neg (not_lt.mpr hb), max_eq_right hb]
    · rw [if_neg h1, min_eq_right (not_lt.mp h1)]
      by_cases h2 : x < low
      · rw [if_pos h2, max_eq_left h2.le]
      · rw [if_neg h2, max_eq_right (not_lt.mp h2)]
  refine ⟨_, elementwise_ok hi h (by simp) (fun k hk => by
    simp only [List.forall_mem_cons, List.not_mem_nil, false_imp_iff, implies_true, and_true] at hk ⊢; omega), elementwiseScalar_ok hi h, ?_⟩
  rw [← e]
  exact filled_becomes _ _ _ _

/-- A memory for the examples: 64 numbers. -/
def ram : Mem := fun a => if 0 ≤ a ∧ a < 64 then some (a + 1) else none

theorem ram_buffer {p : Int} {n : Nat} (h1 : 0 ≤ p) (h2 : p + n ≤ 64) : Buffer ram p n := by
  intro j hj
  have : 0 ≤ p + (j : Int) ∧ p + (j : Int) < 64 := by omega
  simp [ram, this]

/-- In place, with a head, two vectors and a tail. -/
example : ∃ m', gainSSE 33 2 2 13 ram = some m' ∧ Becomes ram m' 2 13 (fun j => item ram 33 j * item ram 2 j) :=
  have ⟨m', h, _, b⟩ := gain (m := ram) (size := 13) 33 2 2 (ram_buffer (by omega) (by omega)) (ram_buffer (by omega) (by omega)) (by right; omega)
    (ram_buffer (by omega) (by omega)) (Or.inl rfl)
  ⟨m', h, b⟩
example : ((gainSSE 33 2 2 13 ram).bind (fun m => m 6)) = some (38 * 7) := by decide +kernel
example : ((multiplyAddSSE 34 18 2 13 ram).bind (fun m => m 6)) = some (7 + 39 * 23) := by decide +kernel

/-- `multiplyAdd` with aligned input and output but gains elsewhere: the vector load of the gains faults. -/
theorem multiplyAdd_misaligned_violated :
    ¬ ∀ (m : Mem) (gain input output : Int) (size : Nat), Buffer m output size → Buffer m gain size → Apart gain output size →
      Buffer m input size → Apart input output size → ∃ m', multiplyAddSSE gain input output size m = some m' := by
  intro h
  obtain ⟨m', h⟩ := h ram 33 16 0 4 (ram_buffer (by omega) (by omega)) (ram_buffer (by omega) (by omega)) (by right; omega)
    (ram_buffer (by omega) (by omega)) (by right; omega)
  have : (multiplyAddSSE 33 16 0 4 ram).isNone = true := by decide +kernel
  rw [h] at this
  cases this

/-- The same for `multiplyMul`. -/
theorem multiplyMul_misaligned_violated :
    ¬ ∀ (m : Mem) (gain input output : Int) (size : Nat), Buffer m output size → Buffer m gain size → Apart gain output size →
      Buffer m input size → Apart input output size → ∃ m', multiplyMulSSE gain input output size m = some m' := by
  intro h
  obtain ⟨m', h⟩ := h ram 33 16 0 4 (ram_buffer (by omega) (by omega)) (ram_buffer (by omega) (by omega)) (by right; omega)
    (ram_buffer (by omega) (by omega)) (by right; omega)
  have : (multiplyMulSSE 33 16 0 4 ram).isNone = true := by decide +kernel
  rw [h] at this
  cases this

/-- The same for the divisors of `divide`. -/
theorem divide_misaligned_violated :
    ¬ ∀ (m : Mem) (input divisor output : Int) (size : Nat), Buffer m output size → Buffer m input size → Apart input output size →
      Buffer m divisor size → Apart divisor output size → ∃ m', divideSSE input divisor output size m = some m' := by
  intro h
  obtain ⟨m', h⟩ := h ram 16 33 0 4 (ram_buffer (by omega) (by omega)) (ram_buffer (by omega) (by omega)) (by right; omega)
    (ram_buffer (by omega) (by omega)) (by right; omega)
  have : (divideSSE 16 33 0 4 ram).isNone = true := by decide +kernel
  rw [h] at this
  cases this

/-! ### Ramps -/

/-- `linearRamp`: element `j` is `start + j·step`; the result is the next value. -/
theorem linearRamp {m : Mem} {size : Nat} (output : Int) (start step : ℚ) (ho : Buffer m output size) :
    ∃ m', linearRampSSE output start step size m = some (m', start + size * step) ∧
      rampScalar (· + ·) output start step size m = some (m', start + size * step) ∧
      Becomes m m' output size (fun j => start + j * step) := by
  let g : Nat → ℚ := fun j => start + j * step
  have hn : ∀ j, g j + step = g (j + 1) := by intro j; simp only [g]; push_cast; ring
  refine ⟨_, rampSSE_ok (g := g) (before := fun j => g j - step) ho (by simp [g]) hn (fun j => rfl) (fun j => by ring) (fun j => by rw [← hn]; ring) ?_,
    rampScalar_ok ho (by simp [g]) hn, filled_becomes _ _ _ _⟩
  intro j
  simp only [V4.zip, set1, V4.mk.injEq, g]
  push_cast
  refine ⟨by ring, by ring, by ring, by ring⟩

/-- `multiplicativeRamp`: element `j` is `start·step^j`; the result is the next value. Missing: a zero step, see below. -/
theorem multiplicativeRamp_partial {m : Mem} {size : Nat} (output : Int) (start step : ℚ) (hs : step ≠ 0) (ho : Buffer m output size) :
    ∃ m', multiplicativeRampSSE output start step size m = some (m', start * step ^ size) ∧
      rampScalar (· * ·) output start step size m = some (m', start * step ^ size) ∧
      Becomes m m' output size (fun j => start * step ^ j) := by
  let g : Nat → ℚ := fun j => start * step ^ j
  have hn : ∀ j, g j * step = g (j + 1) := by intro j; simp only [g]; ring
  refine ⟨_, ?_, rampScalar_ok ho (by simp [g]) hn, filled_becomes _ _ _ _⟩
  unfold multiplicativeRampSSE
  rw [if_neg hs]
  refine rampSSE_ok (g := g) (before := fun j => g j / step) ho (by simp [g]) hn (fun j => rfl) (fun j => by field_simp)
    (fun j => by rw [← hn]; field_simp) ?_
  intro j
  simp only [V4.zip, set1, V4.mk.injEq, g]
  refine ⟨?_, ?_, ?_, ?_⟩ <;> (field_simp; try ring)

/-- With a zero step the scalar version gives `start, 0, 0, ...`; the vectorized one divides by the step. -/
theorem multiplicativeRamp_zero_violated :
    ¬ ∀ (m : Mem) (output : Int) (start step : ℚ) (size : Nat), Buffer m output size →
      (rampScalar (· * ·) output start step size m).isSome → (multiplicativeRampSSE output start step size m).isSome := by
  intro h
  have := h ram 0 1 0 8 (ram_buffer (by omega) (by omega)) (by decide +kernel)
  revert this
  decide +kernel

example : ((linearRampSSE 3 5 2 11 ram).bind (fun r => r.1 12)) = some (5 + 9 * 2) := by decide +kernel
example : ((multiplicativeRampSSE 3 5 2 11 ram).bind (fun r => r.1 12)) = some (5 * 2 ^ 9) := by decide +kernel

/-! ### Running sums and differences -/

/-- `cumsum`: element `j` is the sum of the first `j + 1` inputs, also in place. -/
theorem cumsum {m : Mem} {size : Nat} (input output : Int) (ho : Buffer m output size) (hi : Buffer m input size) (ha : Apart input output size) :
    ∃ m', cumsumSSE input output size m = some m' ∧ cumsumScalar input output size m = some m' ∧
      Becomes m m' output size (fun j => ∑ i ∈ Finset.range (j + 1), item m input i) :=
  ⟨_, cumsumSSE_ok ho hi ha, cumsumScalar_ok ho hi ha, filled_becomes _ _ _ _⟩

example : ((cumsumSSE 3 3 14 ram).bind (fun m => m 12)) = some (4 + 5 + 6 + 7 + 8 + 9 + 10 + 11 + 12 + 13) := by decide +kernel

/-- `diff` between different buffers: element `j` is the input minus the input before it, the first one the input. Missing: working in place. -/
theorem diff_partial {m : Mem} {size : Nat} (input output : Int) (ho : Buffer m output size) (hi : Buffer m input size)
    (ha : Disjoint input output size) :
    ∃ m', diffSSE input output size m = some m' ∧ diffScalar input output size m = some m' ∧
      Becomes m m' output size (fun j => if j = 0 then item m input 0 else item m input j - item m input (j - 1)) := by
  have e : delta m input = fun j => if j = 0 then item m input 0 else item m input j - item m input (j - 1) := by
    funext j
    cases j <;> simp [delta]
  refine ⟨_, diffSSE_ok ho hi ha, diffScalar_ok ho hi ha, ?_⟩
  rw [← e]
  exact filled_becomes _ _ _ _

example : ((diffSSE 33 1 14 ram).bind (fun m => m 12)) = some 1 := by decide +kernel

/-- In place the two versions of `diff` give different numbers. -/
theorem diff_in_place_violated :
    ¬ ∀ (m : Mem) (p : Int) (size : Nat), Buffer m p size → ∀ j, (diffSSE p p size m).map (· (p + j)) = (diffScalar p p size m).map (· (p + j)) := by
  intro h
  have := h ram 0 8 (ram_buffer (by omega) (by omega)) 6
  revert this
  decide +kernel

/-! ### Sums and tests -/

/-- `mean`: the sum of the elements over their number, 0 for an empty buffer. -/
theorem mean {m : Mem} {size : Nat} (input : Int) (hi : Buffer m input size) :
    meanSSE input size m = some ((∑ i ∈ Finset.range size, item m input i) / size) ∧
      sumScalar id input size m = some (∑ i ∈ Finset.range size, item m input i) := by
  refine ⟨?_, sumScalar_ok hi⟩
  unfold meanSSE
  split
  · rename_i h; subst h; simp
  · rw [sumSSE_ok hi]; rfl

/-- `sumSquares`: the sum of the squares. -/
theorem sumSquares {m : Mem} {size : Nat} (input : Int) (hi : Buffer m input size) :
    sumSquaresSSE input size m = some (∑ i ∈ Finset.range size, item m input i ^ 2) ∧
      sumScalar (fun x => x * x) input size m = some (∑ i ∈ Finset.range size, item m input i ^ 2) := by
  have e : gsum (fun x => x * x) m input size = ∑ i ∈ Finset.range size, item m input i ^ 2 :=
    Finset.sum_congr rfl (fun i _ => by ring)
  refine ⟨?_, by rw [sumScalar_ok hi, e]⟩
  unfold sumSquaresSSE
  split
  · rename_i h; subst h; simp
  · rw [sumSSE_ok hi, e]

example : meanSSE 3 14 ram = some (21 / 2) := by decide +kernel
example : sumSquaresSSE 1 6 ram = some (4 + 9 + 16 + 25 + 36 + 49) := by decide +kernel

/-- `allWithin`: true exactly if every element lies between the two bounds, given in any order. -/
theorem allWithin {m : Mem} {size : Nat} (input : Int) (low high : ℚ) (hi : Buffer m input size) :
    ∃ b, allWithinSSE input low high size m = some b ∧ allWithinScalar input low high size m = some b ∧
      (b = true ↔ ∀ j, j < size → min low high ≤ item m input j ∧ item m input j ≤ max low high) := by
  by_cases hs : size = 0
  · subst hs
    exact ⟨true, rfl, rfl, by simp⟩
  refine ⟨decide (∀ j, j < size → min low high ≤ item m input j ∧ item m input j ≤ max low high), ?_, ?_, by simp⟩
  · unfold allWithinSSE
    rw [if_neg hs]
    by_cases h : low > high
    · rw [if_pos h, withinLoops_ok hi]
      simp only [min_eq_right h.le, max_eq_left h.le]
    · rw [if_neg h, withinLoops_ok hi]
      simp only [min_eq_left (not_lt.mp h), max_eq_right (not_lt.mp h)]
  · unfold allWithinScalar
    rw [if_neg hs]
    by_cases h : low > high
    · have := withinScalar_ok (low := high) (high := low) hi
      simp only [if_pos h, min_eq_right h.le, max_eq_left h.le] at this ⊢
      rw [← this]
      generalize loop _ _ _ _ = r
      cases r <;> rfl
    · have := withinScalar_ok (low := low) (high := high) hi
      simp only [if_neg h, min_eq_left (not_lt.mp h), max_eq_right (not_lt.mp h)] at this ⊢
      rw [← this]
      generalize loop _ _ _ _ = r
      cases r <;> rfl

example : allWithinSSE 3 17 4 14 ram = some true := by decide +kernel
example : allWithinSSE 3 16 4 14 ram = some false := by decide +kernel

/-! ### Interleaved buffers -/

/-- `readInterleaved`: the left output gets the even elements and the right output the odd ones. -/
theorem readInterleaved {m : Mem} {size : Nat} (input left right : Int) (hi : Buffer m input size) (hbl : Buffer m left (size / 2))
    (hbr : Buffer m right (size / 2)) (hl : Clear input size left (size / 2)) (hr : Clear input size right (size / 2))
    (hlr : Clear left (size / 2) right (size / 2)) :
    ∃ m', readInterleavedSSE input left right size m = some m' ∧ readInterleavedScalar input left right size m = some m' ∧
      (∀ j, j < size / 2 → m' (left + j) = m (input + 2 * j) ∧ m' (right + j) = m (input + 2 * j + 1)) ∧
      ∀ a, (a < left ∨ left + (size / 2 : Nat) ≤ a) → (a < right ∨ right + (size / 2 : Nat) ≤ a) → m' a = m a := by
  refine ⟨_, readInterleavedSSE_ok hi hbl hbr hl hr hlr, readInterleavedScalar_ok hi hbl hbr hl hr hlr, fun j hj => ⟨?_, ?_⟩, fun a h1 h2 => ?_⟩
  · unfold both
    rw [filled_elsewhere hlr le_rfl hj, (filled_becomes m left (even m input) (size / 2)).1 j hj]
    have := buffer_item hi (j := 2 * j) (by omega)
    push_cast at this
    rw [this]; rfl
  · unfold both
    rw [(filled_becomes _ right (odd m input) (size / 2)).1 j hj]
    have := buffer_item hi (j := 2 * j + 1) (by omega)
    push_cast at this
    rw [← add_assoc] at this
    rw [this]; rfl
  · unfold both
    rw [(filled_becomes _ right _ (size / 2)).2 a h2, (filled_becomes m left _ (size / 2)).2 a h1]

/-- `writeInterleaved`: the outputs are the elements of the left and the right input in turn. -/
theorem writeInterleaved {m : Mem} {size : Nat} (left right output : Int) (hev : size % 2 = 0) (ho : Buffer m output size)
    (hbl : Buffer m left (size / 2)) (hbr : Buffer m right (size / 2)) (hl : Clear left (size / 2) output size)
    (hr : Clear right (size / 2) output size) :
    ∃ m', writeInterleavedSSE left right output size m = some m' ∧ writeInterleavedScalar left right output size m = some m' ∧
      (∀ j, j < size / 2 → m' (output + 2 * j) = m (left + j) ∧ m' (output + 2 * j + 1) = m (right + j)) ∧
      ∀ a, (a < output ∨ output + size ≤ a) → m' a = m a := by
  have hb := filled_becomes m output (mixed m left right) size
  refine ⟨_, writeInterleavedSSE_ok hev ho hbl hbr hl hr, writeInterleavedScalar_ok hev ho hbl hbr hl hr, fun j hj => ⟨?_, ?_⟩, hb.2⟩
  · have := hb.1 (2 * j) (by omega)
    push_cast at this
    rw [this, mixed_even, buffer_item hbl hj]
  · have := hb.1 (2 * j + 1) (by omega)
    push_cast at this
    rw [← add_assoc] at this
    rw [this, mixed_odd, buffer_item hbr hj]

example : ((readInterleavedSSE 33 0 16 27 ram).bind (fun m => m 28)) = some 59 := by decide +kernel
example : ((writeInterleavedSSE 4 20 32 26 ram).bind (fun m => m 53)) = some 31 := by decide +kernel

end Verif.Simd
