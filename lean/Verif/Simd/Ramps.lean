import Verif.Simd.Lemmas
import Mathlib.Tactic.FieldSimp
import Mathlib.Algebra.BigOperators.Group.Finset.Basic

/-! Ramps, running sums, differences, sums, tests and interleaving. -/
namespace Verif.Simd

/-! ### Ramps -/

theorem rampStep_filled {m : Mem} {out : Int} {size k : Nat} {g : Nat → ℚ} {next : ℚ → ℚ} (ho : Buffer m out size) (hn : ∀ j, next (g j) = g (j + 1))
    (hk : k < size) : rampStep out next (filled m out g k, k, g k) = some (filled m out g (k + 1), k + 1, g (k + 1)) := by
  unfold rampStep
  simp only
  rw [write_filled ho hk, hn]
  rfl

theorem rampVector_filled {m : Mem} {out : Int} {size k : Nat} {g : Nat → ℚ} {op : ℚ → ℚ → ℚ} {step4 : V4} {x : ℚ} (ho : Buffer m out size)
    (hv : V4.zip op (set1 x) step4 = ⟨g k, g (k + 1), g (k + 2), g (k + 3)⟩) (hk : k + 4 ≤ size) (hal : (out + k) % 4 = 0) :
    rampVector out op step4 (filled m out g k, k, set1 x) = some (filled m out g (k + 4), k + 4, set1 (g (k + 3))) := by
  unfold rampVector
  simp only
  rw [hv, store4_filled ho hk hal]
  rfl

/-- A ramp whose elements are `g 0, g 1, ...`; `before k` is what the vector loop starts from at element `k`. -/
theorem rampSSE_ok {m : Mem} {out : Int} {size : Nat} {g before : Nat → ℚ} {op inv : ℚ → ℚ → ℚ} {step4 : V4} {start step : ℚ} (ho : Buffer m out size)
    (h0 : g 0 = start) (hn : ∀ j, op (g j) step = g (j + 1)) (hinv : ∀ j, inv (g j) step = before j) (hback : ∀ j, op (before j) step = g j)
    (hbef : ∀ j, before (j + 1) = g j)
    (hv : ∀ j, V4.zip op (set1 (before j)) step4 = ⟨g j, g (j + 1), g (j + 2), g (j + 3)⟩) :
    rampSSE op inv step4 out start step size m = some (filled m out g size, g size) := by
  unfold rampSSE
  simp only
  have hlast := prevAligned_le (out + size)
  have hlm := prevAligned_mod (out + size)
  generalize prevAligned (out + size) = last at hlast hlm ⊢
  obtain ⟨s1, e1, ⟨k1, hk1, rfl⟩, c1⟩ := loop_ends (cond := fun s : Mem × Nat × ℚ => unaligned [out + (s.2.1 : Int)] && decide (out + s.2.1 < last))
    (body := rampStep out (op · step)) (fun s => ∃ k, k ≤ size ∧ s = (filled m out g k, k, g k)) (fun s => size - s.2.1)
    (by
      rintro _ ⟨k, hk, rfl⟩ hcond
      simp only [Bool.and_eq_true, decide_eq_true_eq] at hcond
      have : k < size := by omega
      exact ⟨_, rampStep_filled ho hn this, ⟨k + 1, by omega, rfl⟩, by simp only; omega⟩)
    (size + 1) (m, 0, start) ⟨0, by omega, by rw [filled_zero, h0]⟩ (by simp)
  rw [e1]
  simp only [Option.bind_eq_bind, Option.bind_some]
  rw [hinv]
  have hal : out + (k1 : Int) < last → (out + (k1 : Int)) % 4 = 0 := by
    intro hlt
    simp only [hlt, decide_true, Bool.and_true] at c1
    exact unaligned_false.mp c1 _ (by simp)
  obtain ⟨s2, e2, ⟨k2, hk2, rfl, h2⟩, c2⟩ := loop_ends (cond := fun s : Mem × Nat × V4 => decide (out + s.2.1 < last))
    (body := rampVector out op step4)
    (fun s => ∃ k, k ≤ size ∧ s = (filled m out g k, k, set1 (before k)) ∧ (out + (k : Int) < last → (out + (k : Int)) % 4 = 0))
    (fun s => size - s.2.1)
    (by
      rintro _ ⟨k, hk, rfl, ha⟩ hcond
      simp only [decide_eq_true_eq] at hcond
      have h4 := ha hcond
      have hk4 : k + 4 ≤ size := by omega
      refine ⟨_, rampVector_filled ho (hv k) hk4 h4, ⟨k + 4, hk4, by rw [← hbef], fun _ => ?_⟩, by simp only; omega⟩
      push_cast; omega)
    (size + 1) (filled m out g k1, k1, set1 (before k1)) ⟨k1, hk1, rfl, hal⟩ (by simp only; omega)
  rw [e2]
  simp only [Option.bind_some]
  rw [show (set1 (before k2)).a = before k2 from rfl, hback]
  obtain ⟨s3, e3, ⟨k3, hk3, rfl⟩, c3⟩ := loop_ends (cond := fun s : Mem × Nat × ℚ => decide (out + s.2.1 < out + size))
    (body := rampStep out (op · step)) (fun s => ∃ k, k ≤ size ∧ s = (filled m out g k, k, g k)) (fun s => size - s.2.1)
    (by
      rintro _ ⟨k, hk, rfl⟩ hcond
      simp only [decide_eq_true_eq] at hcond
      have : k < size := by omega
      exact ⟨_, rampStep_filled ho hn this, ⟨k + 1, by omega, rfl⟩, by simp only; omega⟩)
    (size + 1) (filled m out g k2, k2, g k2) ⟨k2, hk2, rfl⟩ (by simp only; omega)
  rw [e3]
  simp only [decide_eq_false_iff_not] at c3
  have : k3 = size := by omega
  subst this
  rfl

theorem rampScalar_ok {m : Mem} {out : Int} {size : Nat} {g : Nat → ℚ} {op : ℚ → ℚ → ℚ} {start step : ℚ} (ho : Buffer m out size)
    (h0 : g 0 = start) (hn : ∀ j, op (g j) step = g (j + 1)) : rampScalar op out start step size m = some (filled m out g size, g size) := by
  unfold rampScalar
  obtain ⟨s3, e3, ⟨k3, hk3, rfl⟩, c3⟩ := loop_ends (cond := fun s : Mem × Nat × ℚ => decide (s.2.1 < size))
    (body := rampStep out (op · step)) (fun s => ∃ k, k ≤ size ∧ s = (filled m out g k, k, g k)) (fun s => size - s.2.1)
    (by
      rintro _ ⟨k, hk, rfl⟩ hcond
      simp only [decide_eq_true_eq] at hcond
      exact ⟨_, rampStep_filled ho hn hcond, ⟨k + 1, by omega, rfl⟩, by simp only; omega⟩)
    (size + 1) (m, 0, start) ⟨0, by omega, by rw [filled_zero, h0]⟩ (by simp)
  rw [e3]
  simp only [decide_eq_false_iff_not] at c3
  have : k3 = size := by omega
  subst this
  rfl

/-! ### Running sums -/

/-- The sum of the first elements. -/
def psum (m : Mem) (p : Int) (j : Nat) : ℚ := ∑ i ∈ Finset.range (j + 1), item m p i

theorem psum_succ (m : Mem) (p : Int) (j : Nat) : psum m p (j + 1) = psum m p j + item m p (j + 1) := by
  unfold psum; rw [Finset.sum_range_succ]

theorem filled_self {m : Mem} {out : Int} {g : Nat → ℚ} {k : Nat} (hk : 1 ≤ k) : filled m out g k (out + k - 1) = some (g (k - 1)) := by
  have h : out ≤ out + (k : Int) - 1 ∧ out + (k : Int) - 1 < out + k := by omega
  simp only [filled, if_pos h]
  congr 2
  omega

theorem cumsumStep_filled {m : Mem} {input out : Int} {size k : Nat} (ho : Buffer m out size) (hi : Buffer m input size) (ha : Apart input out size)
    (h1 : 1 ≤ k) (hk : k < size) :
    cumsumStep input out (filled m out (psum m input) k, k) = some (filled m out (psum m input) (k + 1), k + 1) := by
  unfold cumsumStep
  simp only
  rw [filled_self h1, filled_read ha hi le_rfl hk]
  simp only [Option.bind_eq_bind, Option.bind_some]
  have : psum m input (k - 1) + item m input k = psum m input k := by
    obtain ⟨j, rfl⟩ : ∃ j, k = j + 1 := ⟨k - 1, by omega⟩
    rw [psum_succ]; rfl
  rw [this, write_filled ho hk]
  rfl

theorem cumsumVector_filled {m : Mem} {input out : Int} {size k : Nat} (ho : Buffer m out size) (hi : Buffer m input size) (ha : Apart input out size)
    (h1 : 1 ≤ k) (hk : k + 4 ≤ size) (hal : (out + k) % 4 = 0) (hal' : (input + k) % 4 = 0) :
    cumsumVector input out (filled m out (psum m input) k, k, set1 (psum m input (k - 1))) =
      some (filled m out (psum m input) (k + 4), k + 4, set1 (psum m input (k + 3))) := by
  unfold cumsumVector
  simp only
  rw [load4_filled ha hi hk hal']
  simp only [Option.bind_eq_bind, Option.bind_some]
  obtain ⟨j, rfl⟩ : ∃ j, k = j + 1 := ⟨k - 1, by omega⟩
  have hv : V4.zip (· + ·) (set1 (psum m input (j + 1 - 1)))
      (V4.zip (· + ·) (V4.zip (· + ·) ⟨item m input (j + 1), item m input (j + 1 + 1), item m input (j + 1 + 2), item m input (j + 1 + 3)⟩
          (V4.up ⟨item m input (j + 1), item m input (j + 1 + 1), item m input (j + 1 + 2), item m input (j + 1 + 3)⟩))
        (V4.up2 (V4.zip (· + ·) ⟨item m input (j + 1), item m input (j + 1 + 1), item m input (j + 1 + 2), item m input (j + 1 + 3)⟩
          (V4.up ⟨item m input (j + 1), item m input (j + 1 + 1), item m input (j + 1 + 2), item m input (j + 1 + 3)⟩)))) =
      ⟨psum m input (j + 1), psum m input (j + 1 + 1), psum m input (j + 1 + 2), psum m input (j + 1 + 3)⟩ := by
    simp only [V4.zip, V4.up, V4.up2, set1, Nat.add_sub_cancel, V4.mk.injEq]
    have e1 := psum_succ m input j
    have e2 := psum_succ m input (j + 1)
    have e3 := psum_succ m input (j + 1 + 1)
    have e4 := psum_succ m input (j + 1 + 2)
    refine ⟨?_, ?_, ?_, ?_⟩
    · rw [e1]; ring
    · rw [e2, e1]; ring
    · rw [e3, e2, e1]; ring
    · rw [e4, e3, e2, e1]; ring
  rw [hv, store4_filled ho hk hal]
  rfl

theorem filled_one {m : Mem} {input out : Int} {size : Nat} {g : Nat → ℚ} (ho : Buffer m out size) (hi : Buffer m input size) (hs : size ≠ 0)
    (hg : g 0 = item m input 0) : (do let x ← m input; write m out x) = some (filled m out g 1) := by
  have h0 := buffer_item hi (j := 0) (by omega)
  simp only [Nat.cast_zero, add_zero] at h0
  rw [h0]
  simp only [Option.bind_eq_bind, Option.bind_some]
  have h1 := write_filled (g := g) (k := 0) ho (by omega)
  rw [filled_zero] at h1
  simpa [hg] using h1

theorem cumsumSSE_ok {m : Mem} {input out : Int} {size : Nat} (ho : Buffer m out size) (hi : Buffer m input size) (ha : Apart input out size) :
    cumsumSSE input out size m = some (filled m out (psum m input) size) := by
  unfold cumsumSSE
  split
  · rename_i h; subst h; rw [filled_zero]
  rename_i hs
  have hf := filled_one (g := psum m input) ho hi hs (by simp [psum])
  simp only [Option.bind_eq_bind] at hf ⊢
  rw [← Option.bind_assoc, hf, Option.bind_some]
  have hlast := prevAligned_le (out + size)
  have hlm := prevAligned_mod (out + size)
  generalize prevAligned (out + size) = last at hlast hlm ⊢
  obtain ⟨s1, e1, ⟨k1, hk1, q1, rfl⟩, c1⟩ := loop_ends
    (cond := fun s : Mem × Nat => unaligned [input + (s.2 : Int), out + (s.2 : Int)] && decide (out + s.2 < last))
    (body := cumsumStep input out) (fun s => ∃ k, k ≤ size ∧ 1 ≤ k ∧ s = (filled m out (psum m input) k, k)) (fun s => size - s.2)
    (by
      rintro _ ⟨k, hk, h1, rfl⟩ hcond
      simp only [Bool.and_eq_true, decide_eq_true_eq] at hcond
      have : k < size := by omega
      exact ⟨_, cumsumStep_filled ho hi ha h1 this, ⟨k + 1, by omega, by omega, rfl⟩, by simp only; omega⟩)
    (size + 1) (filled m out (psum m input) 1, 1) ⟨1, by omega, by omega, rfl⟩ (by simp only; omega)
  rw [e1]
  simp only [Option.bind_some]
  rw [filled_self q1]
  simp only [Option.bind_some]
  have hal : out + (k1 : Int) < last → (out + (k1 : Int)) % 4 = 0 ∧ (input + (k1 : Int)) % 4 = 0 := by
    intro hlt
    simp only [hlt, decide_true, Bool.and_true] at c1
    exact ⟨unaligned_false.mp c1 _ (by simp), unaligned_false.mp c1 _ (by simp)⟩
  obtain ⟨s2, e2, ⟨k2, hk2, q2, rfl, h2⟩, c2⟩ := loop_ends (cond := fun s : Mem × Nat × V4 => decide (out + s.2.1 < last))
    (body := cumsumVector input out)
    (fun s => ∃ k, k ≤ size ∧ 1 ≤ k ∧ s = (filled m out (psum m input) k, k, set1 (psum m input (k - 1))) ∧
      (out + (k : Int) < last → (out + (k : Int)) % 4 = 0 ∧ (input + (k : Int)) % 4 = 0))
    (fun s => size - s.2.1)
    (by
      rintro _ ⟨k, hk, h1, rfl, hh⟩ hcond
      simp only [decide_eq_true_eq] at hcond
      obtain ⟨h4, h5⟩ := hh hcond
      have hk4 : k + 4 ≤ size := by omega
      refine ⟨_, cumsumVector_filled ho hi ha h1 hk4 h4 h5, ⟨k + 4, hk4, by omega, rfl, fun _ => ?_⟩, by simp only; omega⟩
      push_cast; omega)
    (size + 1) (filled m out (psum m input) k1, k1, set1 (psum m input (k1 - 1))) ⟨k1, hk1, q1, rfl, hal⟩ (by simp only; omega)
  rw [e2]
  simp only [Option.bind_some]
  obtain ⟨s3, e3, ⟨k3, hk3, q3, rfl⟩, c3⟩ := loop_ends (cond := fun s : Mem × Nat => decide (out + s.2 < out + size))
    (body := cumsumStep input out) (fun s => ∃ k, k ≤ size ∧ 1 ≤ k ∧ s = (filled m out (psum m input) k, k)) (fun s => size - s.2)
    (by
      rintro _ ⟨k, hk, h1, rfl⟩ hcond
      simp only [decide_eq_true_eq] at hcond
      have : k < size := by omega
      exact ⟨_, cumsumStep_filled ho hi ha h1 this, ⟨k + 1, by omega, by omega, rfl⟩, by simp only; omega⟩)
    (size + 1) (filled m out (psum m input) k2, k2) ⟨k2, hk2, q2, rfl⟩ (by simp only; omega)
  rw [e3]
  simp only [decide_eq_false_iff_not] at c3
  have : k3 = size := by omega
  subst this
  rfl

theorem cumsumScalar_ok {m : Mem} {input out : Int} {size : Nat} (ho : Buffer m out size) (hi : Buffer m input size) (ha : Apart input out size) :
    cumsumScalar input out size m = some (filled m out (psum m input) size) := by
  unfold cumsumScalar
  split
  · rename_i h; subst h; rw [filled_zero]
  rename_i hs
  have hf := filled_one (g := psum m input) ho hi hs (by simp [psum])
  simp only [Option.bind_eq_bind] at hf ⊢
  rw [← Option.bind_assoc, hf, Option.bind_some]
  obtain ⟨s3, e3, ⟨k3, hk3, q3, rfl⟩, c3⟩ := loop_ends (cond := fun s : Mem × Nat => decide (s.2 < size))
    (body := cumsumStep input out) (fun s => ∃ k, k ≤ size ∧ 1 ≤ k ∧ s = (filled m out (psum m input) k, k)) (fun s => size - s.2)
    (by
      rintro _ ⟨k, hk, h1, rfl⟩ hcond
      simp only [decide_eq_true_eq] at hcond
      exact ⟨_, cumsumStep_filled ho hi ha h1 hcond, ⟨k + 1, by omega, by omega, rfl⟩, by simp only; omega⟩)
    (size + 1) (filled m out (psum m input) 1, 1) ⟨1, by omega, by omega, rfl⟩ (by simp only; omega)
  rw [e3]
  simp only [decide_eq_false_iff_not] at c3
  have : k3 = size := by omega
  subst this
  rfl

/-! ### Differences -/

/-- The differences of neighbours; the first element itself. -/
def delta (m : Mem) (p : Int) : Nat → ℚ
  | 0 => item m p 0
  | j + 1 => item m p (j + 1) - item m p j

/-- The input does not overlap the output. -/
def Disjoint (p out : Int) (n : Nat) : Prop := p + n ≤ out ∨ out + n ≤ p

theorem filled_read_all {m : Mem} {p out : Int} {g : Nat → ℚ} {n k j : Nat} (ha : Disjoint p out n) (hb : Buffer m p n) (hk : k ≤ n) (hj : j < n) :
    filled m out g k (p + j) = some (item m p j) := by
  have h : ¬ (out ≤ p + (j : Int) ∧ p + (j : Int) < out + k) := by
    rcases ha with h | h <;> omega
  simp only [filled, if_neg h]
  exact buffer_item hb hj

theorem diffStep_filled {m : Mem} {input out : Int} {size k : Nat} (ho : Buffer m out size) (hi : Buffer m input size) (ha : Disjoint input out size)
    (h1 : 1 ≤ k) (hk : k < size) :
    diffStep input out (filled m out (delta m input) k, k) = some (filled m out (delta m input) (k + 1), k + 1) := by
  unfold diffStep
  simp only
  obtain ⟨j, rfl⟩ : ∃ j, k = j + 1 := ⟨k - 1, by omega⟩
  have e : input + ((j + 1 : Nat) : Int) - 1 = input + (j : Int) := by push_cast; ring
  rw [filled_read_all ha hi (by omega) hk, e, filled_read_all ha hi (by omega) (by omega)]
  simp only [Option.bind_eq_bind, Option.bind_some]
  rw [show item m input (j + 1) - item m input j = delta m input (j + 1) from rfl, write_filled ho hk]
  rfl

theorem diffVector_filled {m : Mem} {input out : Int} {size k : Nat} (ho : Buffer m out size) (hi : Buffer m input size) (ha : Disjoint input out size)
    (h1 : 1 ≤ k) (hk : k + 4 ≤ size) (hal : (out + k) % 4 = 0) (hal' : (input + k) % 4 = 0) :
    diffVector input out (filled m out (delta m input) k, k, set1 (item m input (k - 1))) =
      some (filled m out (delta m input) (k + 4), k + 4, set1 (item m input (k + 3))) := by
  unfold diffVector
  simp only
  rw [load4_of hal' (fun j q1 q2 => filled_read_all ha hi (by omega) (by omega))]
  simp only [Option.bind_eq_bind, Option.bind_some]
  obtain ⟨j, rfl⟩ : ∃ j, k = j + 1 := ⟨k - 1, by omega⟩
  have hv : V4.zip (· - ·) (V4.zip (· - ·) ⟨item m input (j + 1), item m input (j + 1 + 1), item m input (j + 1 + 2), item m input (j + 1 + 3)⟩
        (set1 (item m input (j + 1 - 1))))
      (V4.up (V4.zip (· - ·) ⟨item m input (j + 1), item m input (j + 1 + 1), item m input (j + 1 + 2), item m input (j + 1 + 3)⟩
        (set1 (item m input (j + 1 - 1))))) =
      ⟨delta m input (j + 1), delta m input (j + 1 + 1), delta m input (j + 1 + 2), delta m input (j + 1 + 3)⟩ := by
    simp only [V4.zip, V4.up, set1, Nat.add_sub_cancel, V4.mk.injEq, delta]
    refine ⟨by ring, by ring, by ring, by ring⟩
  rw [hv, store4_filled ho hk hal]
  rfl

theorem diffSSE_ok {m : Mem} {input out : Int} {size : Nat} (ho : Buffer m out size) (hi : Buffer m input size) (ha : Disjoint input out size) :
    diffSSE input out size m = some (filled m out (delta m input) size) := by
  unfold diffSSE
  split
  · rename_i h; subst h; rw [filled_zero]
  rename_i hs
  have hf := filled_one (g := delta m input) ho hi hs rfl
  simp only [Option.bind_eq_bind] at hf ⊢
  rw [← Option.bind_assoc, hf, Option.bind_some]
  have hlast := prevAligned_le (out + size)
  have hlm := prevAligned_mod (out + size)
  generalize prevAligned (out + size) = last at hlast hlm ⊢
  obtain ⟨s1, e1, ⟨k1, hk1, q1, rfl⟩, c1⟩ := loop_ends
    (cond := fun s : Mem × Nat => unaligned [input + (s.2 : Int), out + (s.2 : Int)] && decide (out + s.2 < last))
    (body := diffStep input out) (fun s => ∃ k, k ≤ size ∧ 1 ≤ k ∧ s = (filled m out (delta m input) k, k)) (fun s => size - s.2)
    (by
      rintro _ ⟨k, hk, h1, rfl⟩ hcond
      simp only [Bool.and_eq_true, decide_eq_true_eq] at hcond
      have : k < size := by omega
      exact ⟨_, diffStep_filled ho hi ha h1 this, ⟨k + 1, by omega, by omega, rfl⟩, by simp only; omega⟩)
    (size + 1) (filled m out (delta m input) 1, 1) ⟨1, by omega, by omega, rfl⟩ (by simp only; omega)
  rw [e1]
  simp only [Option.bind_some]
  have e : input + (k1 : Int) - 1 = input + ((k1 - 1 : Nat) : Int) := by omega
  rw [e, filled_read_all ha hi hk1 (by omega)]
  simp only [Option.bind_some]
  have hal : out + (k1 : Int) < last → (out + (k1 : Int)) % 4 = 0 ∧ (input + (k1 : Int)) % 4 = 0 := by
    intro hlt
    simp only [hlt, decide_true, Bool.and_true] at c1
    exact ⟨unaligned_false.mp c1 _ (by simp), unaligned_false.mp c1 _ (by simp)⟩
  obtain ⟨s2, e2, ⟨k2, hk2, q2, rfl, h2⟩, c2⟩ := loop_ends (cond := fun s : Mem × Nat × V4 => decide (out + s.2.1 < last))
    (body := diffVector input out)
    (fun s => ∃ k, k ≤ size ∧ 1 ≤ k ∧ s = (filled m out (delta m input) k, k, set1 (item m input (k - 1))) ∧
      (out + (k : Int) < last → (out + (k : Int)) % 4 = 0 ∧ (input + (k : Int)) % 4 = 0))
    (fun s => size - s.2.1)
    (by
      rintro _ ⟨k, hk, h1, rfl, hh⟩ hcond
      simp only [decide_eq_true_eq] at hcond
      obtain ⟨h4, h5⟩ := hh hcond
      have hk4 : k + 4 ≤ size := by omega
      refine ⟨_, diffVector_filled ho hi ha h1 hk4 h4 h5, ⟨k + 4, hk4, by omega, rfl, fun _ => ?_⟩, by simp only; omega⟩
      push_cast; omega)
    (size + 1) (filled m out (delta m input) k1, k1, set1 (item m input (k1 - 1))) ⟨k1, hk1, q1, rfl, hal⟩ (by simp only; omega)
  rw [e2]
  simp only [Option.bind_some]
  obtain ⟨s3, e3, ⟨k3, hk3, q3, rfl⟩, c3⟩ := loop_ends (cond := fun s : Mem × Nat => decide (out + s.2 < out + size))
    (body := diffStep input out) (fun s => ∃ k, k ≤ size ∧ 1 ≤ k ∧ s = (filled m out (delta m input) k, k)) (fun s => size - s.2)
    (by
      rintro _ ⟨k, hk, h1, rfl⟩ hcond
      simp only [decide_eq_true_eq] at hcond
      have : k < size := by omega
      exact ⟨_, diffStep_filled ho hi ha h1 this, ⟨k + 1, by omega, by omega, rfl⟩, by simp only; omega⟩)
    (size + 1) (filled m out (delta m input) k2, k2) ⟨k2, hk2, q2, rfl⟩ (by simp only; omega)
  rw [e3]
  simp only [decide_eq_false_iff_not] at c3
  have : k3 = size := by omega
  subst this
  rfl

theorem diffScalar_ok {m : Mem} {input out : Int} {size : Nat} (ho : Buffer m out size) (hi : Buffer m input size) (ha : Disjoint input out size) :
    diffScalar input out size m = some (filled m out (delta m input) size) := by
  unfold diffScalar
  split
  · rename_i h; subst h; rw [filled_zero]
  rename_i hs
  have hf := filled_one (g := delta m input) ho hi hs rfl
  simp only [Option.bind_eq_bind] at hf ⊢
  rw [← Option.bind_assoc, hf, Option.bind_some]
  obtain ⟨s3, e3, ⟨k3, hk3, q3, rfl⟩, c3⟩ := loop_ends (cond := fun s : Mem × Nat => decide (s.2 < size))
    (body := diffStep input out) (fun s => ∃ k, k ≤ size ∧ 1 ≤ k ∧ s = (filled m out (delta m input) k, k)) (fun s => size - s.2)
    (by
      rintro _ ⟨k, hk, h1, rfl⟩ hcond
      simp only [decide_eq_true_eq] at hcond
      exact ⟨_, diffStep_filled ho hi ha h1 hcond, ⟨k + 1, by omega, by omega, rfl⟩, by simp only; omega⟩)
    (size + 1) (filled m out (delta m input) 1, 1) ⟨1, by omega, by omega, rfl⟩ (by simp only; omega)
  rw [e3]
  simp only [decide_eq_false_iff_not] at c3
  have : k3 = size := by omega
  subst this
  rfl

/-! ### Sums -/

/-- The sum of `g` over the first `k` elements. -/
def gsum (g : ℚ → ℚ) (m : Mem) (p : Int) (k : Nat) : ℚ := ∑ i ∈ Finset.range k, g (item m p i)

theorem gsum_succ (g : ℚ → ℚ) (m : Mem) (p : Int) (k : Nat) : gsum g m p (k + 1) = gsum g m p k + g (item m p k) := by
  unfold gsum; rw [Finset.sum_range_succ]

theorem sumSSE_ok {g : ℚ → ℚ} {m : Mem} {input : Int} {size : Nat} (hi : Buffer m input size) :
    sumSSE g input size m = some (gsum g m input size) := by
  unfold sumSSE
  simp only
  have hlast := prevAligned_le (input + size)
  have hlm := prevAligned_mod (input + size)
  generalize prevAligned (input + size) = last at hlast hlm ⊢
  have step : ∀ (k : Nat) (acc : ℚ), k < size → sumStep g input m (k, acc) = some (k + 1, acc + g (item m input k)) := by
    intro k acc hk
    unfold sumStep
    simp only
    rw [buffer_item hi hk]; rfl
  obtain ⟨s1, e1, ⟨k1, hk1, rfl⟩, c1⟩ := loop_ends (cond := fun s : Nat × ℚ => unaligned [input + (s.1 : Int)] && decide (input + s.1 < last))
    (body := sumStep g input m) (fun s => ∃ k, k ≤ size ∧ s = (k, gsum g m input k)) (fun s => size - s.1)
    (by
      rintro _ ⟨k, hk, rfl⟩ hcond
      simp only [Bool.and_eq_true, decide_eq_true_eq] at hcond
      have : k < size := by omega
      exact ⟨_, step k _ this, ⟨k + 1, by omega, by rw [gsum_succ]⟩, by simp only; omega⟩)
    (size + 1) (0, 0) ⟨0, by omega, by simp [gsum]⟩ (by simp)
  rw [e1]
  simp only [Option.bind_eq_bind, Option.bind_some]
  have hal : input + (k1 : Int) < last → (input + (k1 : Int)) % 4 = 0 := by
    intro hlt
    simp only [hlt, decide_true, Bool.and_true] at c1
    exact unaligned_false.mp c1 _ (by simp)
  obtain ⟨s2, e2, ⟨k2, v2, hk2, rfl, h2, h2'⟩, c2⟩ := loop_ends (cond := fun s : Nat × V4 => decide (input + s.1 < last))
    (body := sumVector g input m)
    (fun s => ∃ k v, k ≤ size ∧ s = (k, v) ∧ gsum g m input k1 + v.a + v.b + v.c + v.d = gsum g m input k ∧
      (input + (k : Int) < last → (input + (k : Int)) % 4 = 0))
    (fun s => size - s.1)
    (by
      rintro _ ⟨k, v, hk, rfl, hsum, hh⟩ hcond
      simp only [decide_eq_true_eq] at hcond
      have h4 := hh hcond
      have hk4 : k + 4 ≤ size := by omega
      refine ⟨_, by
        unfold sumVector
        simp only
        rw [load4_of h4 (fun j q1 q2 => buffer_item hi (by omega))]
        rfl, ⟨k + 4, _, hk4, rfl, ?_, fun _ => ?_⟩, by simp only; omega⟩
      · rw [gsum_succ, gsum_succ, gsum_succ, gsum_succ, ← hsum]
        simp only [V4.zip]
        ring
      · push_cast; omega)
    (size + 1) (k1, set1 0) ⟨k1, _, hk1, rfl, by simp [set1], hal⟩ (by simp only; omega)
  rw [e2]
  simp only [Option.bind_some]
  rw [h2]
  obtain ⟨s3, e3, ⟨k3, hk3, rfl⟩, c3⟩ := loop_ends (cond := fun s : Nat × ℚ => decide (input + s.1 < input + size))
    (body := sumStep g input m) (fun s => ∃ k, k ≤ size ∧ s = (k, gsum g m input k)) (fun s => size - s.1)
    (by
      rintro _ ⟨k, hk, rfl⟩ hcond
      simp only [decide_eq_true_eq] at hcond
      have : k < size := by omega
      exact ⟨_, step k _ this, ⟨k + 1, by omega, by rw [gsum_succ]⟩, by simp only; omega⟩)
    (size + 1) (k2, gsum g m input k2) ⟨k2, hk2, rfl⟩ (by simp only; omega)
  rw [e3]
  simp only [decide_eq_false_iff_not] at c3
  have : k3 = size := by omega
  subst this
  rfl

theorem sumScalar_ok {g : ℚ → ℚ} {m : Mem} {input : Int} {size : Nat} (hi : Buffer m input size) :
    sumScalar g input size m = some (gsum g m input size) := by
  unfold sumScalar
  obtain ⟨s3, e3, ⟨k3, hk3, rfl⟩, c3⟩ := loop_ends (cond := fun s : Nat × ℚ => decide (s.1 < size))
    (body := sumStep g input m) (fun s => ∃ k, k ≤ size ∧ s = (k, gsum g m input k)) (fun s => size - s.1)
    (by
      rintro _ ⟨k, hk, rfl⟩ hcond
      simp only [decide_eq_true_eq] at hcond
      refine ⟨_, by unfold sumStep; simp only; rw [buffer_item hi hcond]; rfl, ⟨k + 1, by omega, by rw [gsum_succ]⟩, by simp only; omega⟩)
    (size + 1) (0, 0) ⟨0, by omega, by simp [gsum]⟩ (by simp)
  rw [e3]
  simp only [decide_eq_false_iff_not] at c3
  have : k3 = size := by omega
  subst this
  rfl

/-! ### The range test -/

/-- The answer after `k` elements. -/
def Seen (low high : ℚ) (m : Mem) (p : Int) (size : Nat) (s : Nat × Bool) : Prop :=
  s.1 ≤ size ∧ (∀ j, j < s.1 → low ≤ item m p j ∧ item m p j ≤ high) ∧ (s.2 = false → ∃ j, j < size ∧ ¬ (low ≤ item m p j ∧ item m p j ≤ high))

theorem withinStep_seen {low high : ℚ} {m : Mem} {input : Int} {size : Nat} (hi : Buffer m input size) (s : Nat × Bool) (h : Seen low high m input size s)
    (hb : s.2 = true) (hk : s.1 < size) :
    ∃ s', withinStep low high input m s = some s' ∧ Seen low high m input size s' ∧ (s'.1 = s.1 + 1 ∨ s'.2 = false) := by
  obtain ⟨k, b⟩ := s
  simp only at hb hk
  subst hb
  unfold withinStep
  simp only
  rw [buffer_item hi hk]
  simp only [Option.bind_eq_bind, Option.bind_some, Option.pure_def, Option.some.injEq, exists_eq_left']
  split
  · rename_i ho
    refine ⟨⟨h.1, h.2.1, fun _ => ⟨k, hk, fun hc => ?_⟩⟩, Or.inr rfl⟩
    rcases ho with ho | ho <;> linarith [hc.1, hc.2]
  · rename_i ho
    push Not at ho
    refine ⟨⟨hk, fun j hj => ?_, by simp⟩, Or.inl rfl⟩
    have hj' : j < k + 1 := hj
    rcases Nat.lt_succ_iff_lt_or_eq.mp hj' with hj | rfl
    · exact h.2.1 j hj
    · exact ho

theorem withinVector_seen {low high : ℚ} {m : Mem} {input : Int} {size : Nat} (hi : Buffer m input size) (s : Nat × Bool) (h : Seen low high m input size s)
    (hb : s.2 = true) (hk : s.1 + 4 ≤ size) (hal : (input + s.1) % 4 = 0) :
    ∃ s', withinVector low high input m s = some s' ∧ Seen low high m input size s' ∧ (s'.1 = s.1 + 4 ∨ s'.2 = false) := by
  obtain ⟨k, b⟩ := s
  simp only at hb hk hal
  subst hb
  unfold withinVector
  simp only
  rw [load4_of hal (fun j q1 q2 => buffer_item hi (by omega))]
  simp only [Option.bind_eq_bind, Option.bind_some, Option.pure_def, Option.some.injEq, exists_eq_left']
  split
  · rename_i ho
    refine ⟨⟨h.1, h.2.1, fun _ => ?_⟩, Or.inr rfl⟩
    rcases ho with ho | ho | ho | ho
    · exact ⟨k, by omega, fun hc => by rcases ho with ho | ho <;> linarith [hc.1, hc.2]⟩
    · exact ⟨k + 1, by omega, fun hc => by rcases ho with ho | ho <;> linarith [hc.1, hc.2]⟩
    · exact ⟨k + 2, by omega, fun hc => by rcases ho with ho | ho <;> linarith [hc.1, hc.2]⟩
    · exact ⟨k + 3, by omega, fun hc => by rcases ho with ho | ho <;> linarith [hc.1, hc.2]⟩
  · rename_i ho
    push Not at ho
    refine ⟨⟨hk, fun j hj => ?_, by simp⟩, Or.inl rfl⟩
    have hj' : j < k + 4 := hj
    have : j < k ∨ j = k ∨ j = k + 1 ∨ j = k + 2 ∨ j = k + 3 := by omega
    rcases this with hj | rfl | rfl | rfl | rfl
    · exact h.2.1 j hj
    · exact ho.1
    · exact ho.2.1
    · exact ho.2.2.1
    · exact ho.2.2.2

theorem withinLoops_ok {low high : ℚ} {m : Mem} {input : Int} {size : Nat} (hi : Buffer m input size) :
    withinLoops low high input size m = some (decide (∀ j, j < size → low ≤ item m input j ∧ item m input j ≤ high)) := by
  unfold withinLoops
  simp only
  have hlast := prevAligned_le (input + size)
  have hlm := prevAligned_mod (input + size)
  generalize prevAligned (input + size) = last at hlast hlm ⊢
  have mu : ∀ s s' : Nat × Bool, s.2 = true → s.1 < size → s'.1 ≤ size → (s'.1 = s.1 + 1 ∨ s'.1 = s.1 + 4 ∨ s'.2 = false) →
      (if s'.2 then size - s'.1 else 0) < (if s.2 then size - s.1 else 0) := by
    intro s s' h1 h2 h3 h4
    rw [h1, if_pos rfl]
    split
    · rcases h4 with h4 | h4 | h4
      · omega
      · omega
      · rename_i h; rw [h4] at h; cases h
    · omega
  have scalar : ∀ cond : Nat × Bool → Bool, (∀ s, cond s = true → s.2 = true ∧ input + (s.1 : Int) < input + size) →
      ∀ s, Seen low high m input size s → cond s = true →
      ∃ s', withinStep low high input m s = some s' ∧ Seen low high m input size s' ∧
        (if s'.2 then size - s'.1 else 0) < (if s.2 then size - s.1 else 0) := by
    intro cond hc s h1 h2
    obtain ⟨a, b⟩ := hc s h2
    have hk : s.1 < size := by omega
    obtain ⟨s', q1, q2, q3⟩ := withinStep_seen hi s h1 a hk
    exact ⟨s', q1, q2, mu s s' a hk q2.1 (by tauto)⟩
  have small : ∀ s : Nat × Bool, (if s.2 then size - s.1 else 0) < size + 1 := by
    intro s; split <;> omega
  obtain ⟨s1, e1, h1, c1⟩ := loop_ends (cond := fun s : Nat × Bool => s.2 && unaligned [input + (s.1 : Int)] && decide (input + s.1 < last))
    (body := withinStep low high input m) (Seen low high m input size) (fun s => if s.2 then size - s.1 else 0)
    (scalar _ (fun s h => by simp only [Bool.and_eq_true, decide_eq_true_eq] at h; exact ⟨h.1.1, by omega⟩))
    (size + 1) (0, true) ⟨by simp, by simp, by simp⟩ (small _)
  rw [e1]
  simp only [Option.bind_eq_bind, Option.bind_some]
  have hal : s1.2 = true → input + (s1.1 : Int) < last → (input + (s1.1 : Int)) % 4 = 0 := by
    intro hb hlt
    simp only [hb, hlt, decide_true, Bool.and_true, Bool.true_and] at c1
    exact unaligned_false.mp c1 _ (by simp)
  obtain ⟨s2, e2, ⟨h2, _⟩, c2⟩ := loop_ends (cond := fun s : Nat × Bool => s.2 && decide (input + s.1 < last))
    (body := withinVector low high input m)
    (fun s => Seen low high m input size s ∧ (s.2 = true → input + (s.1 : Int) < last → (input + (s.1 : Int)) % 4 = 0))
    (fun s => if s.2 then size - s.1 else 0)
    (by
      rintro s ⟨h, ha⟩ hcond
      simp only [Bool.and_eq_true, decide_eq_true_eq] at hcond
      have h4 := ha hcond.1 hcond.2
      have hk4 : s.1 + 4 ≤ size := by omega
      obtain ⟨s', q1, q2, q3⟩ := withinVector_seen hi s h hcond.1 hk4 h4
      refine ⟨s', q1, ⟨q2, fun hb _ => ?_⟩, mu s s' hcond.1 (by omega) q2.1 (by tauto)⟩
      rcases q3 with q3 | q3
      · rw [q3]; push_cast; omega
      · rw [q3] at hb; cases hb)
    (size + 1) s1 ⟨h1, hal⟩ (small _)
  rw [e2]
  simp only [Option.bind_some]
  obtain ⟨s3, e3, h3, c3⟩ := loop_ends (cond := fun s : Nat × Bool => s.2 && decide (input + s.1 < input + size))
    (body := withinStep low high input m) (Seen low high m input size) (fun s => if s.2 then size - s.1 else 0)
    (scalar _ (fun s h => by simpa only [Bool.and_eq_true, decide_eq_true_eq] using h))
    (size + 1) s2 h2 (small _)
  rw [e3]
  simp only [Option.bind_some, Option.pure_def, Option.some.injEq]
  obtain ⟨k, b⟩ := s3
  cases b
  · obtain ⟨j, hj, hn⟩ := h3.2.2 rfl
    symm
    rw [decide_eq_false_iff_not]
    exact fun hall => hn (hall j hj)
  · simp only [Bool.true_and, decide_eq_false_iff_not] at c3
    have hk : k = size := by have := h3.1; simp only at this; omega
    subst hk
    symm
    rw [decide_eq_true_eq]
    exact h3.2.1

theorem withinScalar_ok {low high : ℚ} {m : Mem} {input : Int} {size : Nat} (hi : Buffer m input size) :
    (loop (fun s => s.2 && decide (s.1 < size)) (withinStep low high input m) (size + 1) (0, true)).map (·.2) =
      some (decide (∀ j, j < size → low ≤ item m input j ∧ item m input j ≤ high)) := by
  obtain ⟨s3, e3, h3, c3⟩ := loop_ends (cond := fun s : Nat × Bool => s.2 && decide (s.1 < size))
    (body := withinStep low high input m) (Seen low high m input size) (fun s => if s.2 then size - s.1 else 0)
    (by
      intro s h1 h2
      simp only [Bool.and_eq_true, decide_eq_true_eq] at h2
      obtain ⟨s', q1, q2, q3⟩ := withinStep_seen hi s h1 h2.1 h2.2
      refine ⟨s', q1, q2, ?_⟩
      rw [h2.1, if_pos rfl]
      split
      · rcases q3 with q3 | q3
        · have := q2.1; omega
        · rename_i h; rw [q3] at h; cases h
      · omega)
    (size + 1) (0, true) ⟨by simp, by simp, by simp⟩ (by split <;> omega)
  rw [e3]
  simp only [Option.map_some, Option.some.injEq]
  obtain ⟨k, b⟩ := s3
  cases b
  · obtain ⟨j, hj, hn⟩ := h3.2.2 rfl
    symm
    rw [decide_eq_false_iff_not]
    exact fun hall => hn (hall j hj)
  · simp only [Bool.true_and, decide_eq_false_iff_not] at c3
    have hk : k = size := by have := h3.1; simp only at this; omega
    subst hk
    symm
    rw [decide_eq_true_eq]
    exact h3.2.1

/-! ### Interleaved buffers -/

/-- The buffers of `n` numbers at `p` and of `l` numbers at `q` do not overlap. -/
def Clear (p : Int) (n : Nat) (q : Int) (l : Nat) : Prop := p + n ≤ q ∨ q + l ≤ p

theorem filled_comm {m : Mem} {p q : Int} {g h : Nat → ℚ} {n k l : Nat} (hc : Clear p n q n) (hk : k ≤ n) (hl : l ≤ n) :
    filled (filled m p g k) q h l = filled (filled m q h l) p g k := by
  funext a
  unfold filled
  by_cases h1 : q ≤ a ∧ a < q + (l : Int)
  · rw [if_pos h1]
    have h2 : ¬ (p ≤ a ∧ a < p + (k : Int)) := by rcases hc with h | h <;> omega
    rw [if_neg h2, if_pos h1]
  · rw [if_neg h1]
    by_cases h2 : p ≤ a ∧ a < p + (k : Int)
    · rw [if_pos h2, if_pos h2]
    · rw [if_neg h2, if_neg h2, if_neg h1]

theorem buffer_filled {m : Mem} {p q : Int} {g : Nat → ℚ} {n k : Nat} (h : Buffer m p n) : Buffer (filled m q g k) p n :=
  fun j hj => filled_isSome (h j hj)

theorem filled_elsewhere {m : Mem} {p out : Int} {g : Nat → ℚ} {n l k j : Nat} (ha : Clear p n out l) (hk : k ≤ l) (hj : j < n) :
    filled m out g k (p + j) = m (p + j) := by
  have h : ¬ (out ≤ p + (j : Int) ∧ p + (j : Int) < out + k) := by
    rcases ha with h | h <;> omega
  simp only [filled, if_neg h]

/-- Both outputs after `k` pairs. -/
def both (m : Mem) (left right : Int) (gl gr : Nat → ℚ) (k : Nat) : Mem := filled (filled m left gl k) right gr k

/-- The even and odd elements. -/
def even (m : Mem) (p : Int) (j : Nat) : ℚ := item m p (2 * j)
/-- The odd elements. -/
def odd (m : Mem) (p : Int) (j : Nat) : ℚ := item m p (2 * j + 1)

section
variable {m : Mem} {input left right : Int} {size : Nat}

theorem read_input {gl gr : Nat → ℚ} {k l j : Nat} (hi : Buffer m input size) (hl : Clear input size left (size / 2)) (hr : Clear input size right (size / 2))
    (hk : k ≤ size / 2) (hk' : l ≤ size / 2) (hj : j < size) : filled (filled m left gl k) right gr l (input + j) = some (item m input j) := by
  rw [filled_elsewhere hr hk' hj, filled_elsewhere hl hk hj, buffer_item hi hj]

theorem readStep_both (hi : Buffer m input size) (hbl : Buffer m left (size / 2)) (hbr : Buffer m right (size / 2))
    (hl : Clear input size left (size / 2)) (hr : Clear input size right (size / 2)) (hlr : Clear left (size / 2) right (size / 2))
    {k : Nat} (hk : k < size / 2) :
    readStep input left right (both m left right (even m input) (odd m input) k, k) =
      some (both m left right (even m input) (odd m input) (k + 1), k + 1) := by
  unfold readStep both
  simp only
  have r0 : filled (filled m left (even m input) k) right (odd m input) k (input + 2 * (k : Int)) = some (even m input k) := by
    have := read_input (gl := even m input) (gr := odd m input) (k := k) (l := k) (j := 2 * k) hi hl hr (by omega) (by omega) (by omega)
    push_cast at this
    exact this
  have r1 : filled (filled m left (even m input) (k + 1)) right (odd m input) k (input + 2 * (k : Int) + 1) = some (odd m input k) := by
    have := read_input (gl := even m input) (gr := odd m input) (k := k + 1) (l := k) (j := 2 * k + 1) hi hl hr (by omega) (by omega) (by omega)
    push_cast at this
    rw [← add_assoc] at this
    exact this
  rw [r0]
  simp only [Option.bind_eq_bind, Option.bind_some]
  rw [filled_comm hlr (by omega) (by omega), write_filled (buffer_filled hbl) hk]
  simp only [Option.bind_some]
  rw [← filled_comm hlr (by omega) (by omega), r1]
  simp only [Option.bind_some]
  rw [write_filled (buffer_filled hbr) hk]
  rfl

theorem readVector_both (hi : Buffer m input size) (hbl : Buffer m left (size / 2)) (hbr : Buffer m right (size / 2))
    (hl : Clear input size left (size / 2)) (hr : Clear input size right (size / 2)) (hlr : Clear left (size / 2) right (size / 2))
    {k : Nat} (hk : 2 * k + 8 ≤ size) (ai : (input + 2 * (k : Int)) % 4 = 0) (al : (left + (k : Int)) % 4 = 0) (ar : (right + (k : Int)) % 4 = 0) :
    readVector input left right (both m left right (even m input) (odd m input) k, k) =
      some (both m left right (even m input) (odd m input) (k + 4), k + 4) := by
  unfold readVector both
  simp only
  have l0 := load4_of (m := filled (filled m left (even m input) k) right (odd m input) k) (p := input) (k := 2 * k) (x := item m input)
    (by push_cast; exact ai) (fun j _ h2 => read_input hi hl hr (by omega) (by omega) (by omega))
  have l1 := load4_of (m := filled (filled m left (even m input) k) right (odd m input) k) (p := input) (k := 2 * k + 4) (x := item m input)
    (by push_cast; omega) (fun j _ h2 => read_input hi hl hr (by omega) (by omega) (by omega))
  push_cast at l0 l1
  rw [← add_assoc] at l1
  rw [l0, l1]
  simp only [Option.bind_eq_bind, Option.bind_some]
  have el : (⟨item m input (2 * k), item m input (2 * k + 2), item m input (2 * k + 4), item m input (2 * k + 4 + 2)⟩ : V4) =
      ⟨even m input k, even m input (k + 1), even m input (k + 2), even m input (k + 3)⟩ := rfl
  have er : (⟨item m input (2 * k + 1), item m input (2 * k + 3), item m input (2 * k + 4 + 1), item m input (2 * k + 4 + 3)⟩ : V4) =
      ⟨odd m input k, odd m input (k + 1), odd m input (k + 2), odd m input (k + 3)⟩ := rfl
  rw [el, er, filled_comm hlr (by omega) (by omega), store4_filled (buffer_filled hbl) (by omega) al]
  simp only [Option.bind_some]
  rw [← filled_comm hlr (by omega) (by omega), store4_filled (buffer_filled hbr) (by omega) ar]
  rfl

theorem readInterleavedSSE_ok (hi : Buffer m input size) (hbl : Buffer m left (size / 2)) (hbr : Buffer m right (size / 2))
    (hl : Clear input size left (size / 2)) (hr : Clear input size right (size / 2)) (hlr : Clear left (size / 2) right (size / 2)) :
    readInterleavedSSE input left right size m = some (both m left right (even m input) (odd m input) (size / 2)) := by
  unfold readInterleavedSSE
  simp only
  have hlast := prevAligned_le (input + size - 4)
  have hlm := prevAligned_mod (input + size - 4)
  generalize prevAligned (input + size - 4) = last at hlast hlm ⊢
  have scalar : ∀ cond : Mem × Nat → Bool, (∀ s, cond s = true → input + 2 * (s.2 : Int) < input + size - 1) →
      ∀ s, (∃ k, k ≤ size / 2 ∧ s = (both m left right (even m input) (odd m input) k, k)) → cond s = true →
      ∃ s', readStep input left right s = some s' ∧ (∃ k, k ≤ size / 2 ∧ s' = (both m left right (even m input) (odd m input) k, k)) ∧
        size / 2 - s'.2 < size / 2 - s.2 := by
    rintro cond hc _ ⟨k, hk, rfl⟩ hcond
    have := hc _ hcond
    simp only at this
    have hk' : k < size / 2 := by omega
    exact ⟨_, readStep_both hi hbl hbr hl hr hlr hk', ⟨k + 1, by omega, rfl⟩, by simp only; omega⟩
  obtain ⟨s1, e1, ⟨k1, hk1, rfl⟩, c1⟩ := loop_ends
    (cond := fun s : Mem × Nat => unaligned [input + 2 * (s.2 : Int), left + (s.2 : Int), right + (s.2 : Int)] && decide (input + 2 * s.2 < last))
    (body := readStep input left right) _ (fun s => size / 2 - s.2)
    (scalar _ (fun s h => by simp only [Bool.and_eq_true, decide_eq_true_eq] at h; omega))
    (size + 1) (m, 0) ⟨0, by omega, by simp only [both, filled_zero]⟩ (by simp only; omega)
  rw [e1]
  simp only [Option.bind_eq_bind, Option.bind_some]
  have hal : input + 2 * (k1 : Int) < last → (input + 2 * (k1 : Int)) % 4 = 0 ∧ (left + (k1 : Int)) % 4 = 0 ∧ (right + (k1 : Int)) % 4 = 0 := by
    intro hlt
    simp only [hlt, decide_true, Bool.and_true] at c1
    have := unaligned_false.mp c1
    exact ⟨this _ (by simp), this _ (by simp), this _ (by simp)⟩
  obtain ⟨s2, e2, ⟨k2, hk2, rfl, h2⟩, c2⟩ := loop_ends (cond := fun s : Mem × Nat => decide (input + 2 * s.2 < last))
    (body := readVector input left right)
    (fun s => ∃ k, k ≤ size / 2 ∧ s = (both m left right (even m input) (odd m input) k, k) ∧
      (input + 2 * (k : Int) < last → (input + 2 * (k : Int)) % 4 = 0 ∧ (left + (k : Int)) % 4 = 0 ∧ (right + (k : Int)) % 4 = 0))
    (fun s => size / 2 - s.2)
    (by
      rintro _ ⟨k, hk, rfl, hh⟩ hcond
      simp only [decide_eq_true_eq] at hcond
      obtain ⟨a1, a2, a3⟩ := hh hcond
      refine ⟨_, readVector_both hi hbl hbr hl hr hlr (by omega) a1 a2 a3, ⟨k + 4, by omega, rfl, fun _ => ?_⟩, by simp only; omega⟩
      push_cast; omega)
    (size + 1) (both m left right (even m input) (odd m input) k1, k1) ⟨k1, hk1, rfl, hal⟩ (by simp only; omega)
  rw [e2]
  simp only [Option.bind_some]
  obtain ⟨s3, e3, ⟨k3, hk3, rfl⟩, c3⟩ := loop_ends (cond := fun s : Mem × Nat => decide (input + 2 * s.2 < input + size - 1))
    (body := readStep input left right) _ (fun s => size / 2 - s.2)
    (scalar _ (fun s h => by simpa only [decide_eq_true_eq] using h))
    (size + 1) (both m left right (even m input) (odd m input) k2, k2) ⟨k2, hk2, rfl⟩ (by simp only; omega)
  rw [e3]
  simp only [decide_eq_false_iff_not] at c3
  have : k3 = size / 2 := by omega
  subst this
  rfl

theorem readInterleavedScalar_ok (hi : Buffer m input size) (hbl : Buffer m left (size / 2)) (hbr : Buffer m right (size / 2))
    (hl : Clear input size left (size / 2)) (hr : Clear input size right (size / 2)) (hlr : Clear left (size / 2) right (size / 2)) :
    readInterleavedScalar input left right size m = some (both m left right (even m input) (odd m input) (size / 2)) := by
  unfold readInterleavedScalar
  obtain ⟨s3, e3, ⟨k3, hk3, rfl⟩, c3⟩ := loop_ends (cond := fun s : Mem × Nat => decide (input + 2 * s.2 < input + size - 1))
    (body := readStep input left right) (fun s => ∃ k, k ≤ size / 2 ∧ s = (both m left right (even m input) (odd m input) k, k)) (fun s => size / 2 - s.2)
    (by
      rintro _ ⟨k, hk, rfl⟩ hcond
      simp only [decide_eq_true_eq] at hcond
      exact ⟨_, readStep_both hi hbl hbr hl hr hlr (by omega), ⟨k + 1, by omega, rfl⟩, by simp only; omega⟩)
    (size + 1) (m, 0) ⟨0, by omega, by simp only [both, filled_zero]⟩ (by simp only; omega)
  rw [e3]
  simp only [decide_eq_false_iff_not] at c3
  have : k3 = size / 2 := by omega
  subst this
  rfl

end

/-- The two inputs one after the other. -/
def mixed (m : Mem) (left right : Int) (j : Nat) : ℚ := if j % 2 = 0 then item m left (j / 2) else item m right (j / 2)

theorem mixed_even (m : Mem) (left right : Int) (k : Nat) : mixed m left right (2 * k) = item m left k := by
  unfold mixed; rw [if_pos (by omega)]; congr 1; omega

theorem mixed_odd (m : Mem) (left right : Int) (k : Nat) : mixed m left right (2 * k + 1) = item m right k := by
  unfold mixed; rw [if_neg (by omega)]; congr 1; omega

section
variable {m : Mem} {left right output : Int} {size : Nat}

theorem interStep_filled (ho : Buffer m output size) (hbl : Buffer m left (size / 2)) (hbr : Buffer m right (size / 2))
    (hl : Clear left (size / 2) output size) (hr : Clear right (size / 2) output size) {k : Nat} (hk : k < size / 2) :
    interStep left right output (filled m output (mixed m left right) (2 * k), k) =
      some (filled m output (mixed m left right) (2 * (k + 1)), k + 1) := by
  unfold interStep
  simp only
  have w0 := write_filled (g := mixed m left right) (k := 2 * k) ho (by omega)
  have w1 := write_filled (g := mixed m left right) (k := 2 * k + 1) ho (by omega)
  rw [mixed_even] at w0
  rw [mixed_odd] at w1
  push_cast at w0 w1
  rw [← add_assoc] at w1
  rw [filled_elsewhere hl (by omega) hk, buffer_item hbl hk]
  simp only [Option.bind_eq_bind, Option.bind_some]
  rw [w0]
  simp only [Option.bind_some]
  rw [filled_elsewhere hr (by omega) hk, buffer_item hbr hk]
  simp only [Option.bind_some]
  rw [w1]
  rfl

theorem interVector_filled (ho : Buffer m output size) (hbl : Buffer m left (size / 2)) (hbr : Buffer m right (size / 2))
    (hl : Clear left (size / 2) output size) (hr : Clear right (size / 2) output size) {k : Nat} (hk : 2 * k + 8 ≤ size)
    (ao : (output + 2 * (k : Int)) % 4 = 0) (al : (left + (k : Int)) % 4 = 0) (ar : (right + (k : Int)) % 4 = 0) :
    interVector left right output (filled m output (mixed m left right) (2 * k), k) =
      some (filled m output (mixed m left right) (2 * (k + 4)), k + 4) := by
  unfold interVector
  simp only
  rw [load4_of al (x := item m left) (fun j _ h2 => by rw [filled_elsewhere hl (by omega) (by omega), buffer_item hbl (by omega)]),
    load4_of ar (x := item m right) (fun j _ h2 => by rw [filled_elsewhere hr (by omega) (by omega), buffer_item hbr (by omega)])]
  simp only [Option.bind_eq_bind, Option.bind_some]
  have w0 := store4_filled (g := mixed m left right) (k := 2 * k) ho (by omega) (by push_cast; exact ao)
  have w1 := store4_filled (g := mixed m left right) (k := 2 * k + 4) ho (by omega) (by push_cast; omega)
  have e0 := mixed_even m left right k
  have e1 := mixed_odd m left right k
  have e2 : mixed m left right (2 * k + 2) = _ := mixed_even m left right (k + 1)
  have e3 : mixed m left right (2 * k + 3) = _ := mixed_odd m left right (k + 1)
  have e4 : mixed m left right (2 * k + 4) = _ := mixed_even m left right (k + 2)
  have e5 : mixed m left right (2 * k + 4 + 1) = _ := mixed_odd m left right (k + 2)
  have e6 : mixed m left right (2 * k + 4 + 2) = _ := mixed_even m left right (k + 3)
  have e7 : mixed m left right (2 * k + 4 + 3) = _ := mixed_odd m left right (k + 3)
  rw [e0, e1, e2, e3] at w0
  rw [e4, e5, e6, e7] at w1
  push_cast at w0 w1
  rw [← add_assoc] at w1
  rw [w0]
  simp only [Option.bind_some]
  rw [w1]
  rfl

theorem writeInterleavedSSE_ok (hev : size % 2 = 0) (ho : Buffer m output size) (hbl : Buffer m left (size / 2)) (hbr : Buffer m right (size / 2))
    (hl : Clear left (size / 2) output size) (hr : Clear right (size / 2) output size) :
    writeInterleavedSSE left right output size m = some (filled m output (mixed m left right) size) := by
  unfold writeInterleavedSSE
  simp only
  have hlast := prevAligned_le (output + size - 4)
  have hlm := prevAligned_mod (output + size - 4)
  generalize prevAligned (output + size - 4) = last at hlast hlm ⊢
  have scalar : ∀ cond : Mem × Nat → Bool, (∀ s, cond s = true → output + 2 * (s.2 : Int) < output + size - 1) →
      ∀ s, (∃ k, k ≤ size / 2 ∧ s = (filled m output (mixed m left right) (2 * k), k)) → cond s = true →
      ∃ s', interStep left right output s = some s' ∧ (∃ k, k ≤ size / 2 ∧ s' = (filled m output (mixed m left right) (2 * k), k)) ∧
        size / 2 - s'.2 < size / 2 - s.2 := by
    rintro cond hc _ ⟨k, hk, rfl⟩ hcond
    have := hc _ hcond
    simp only at this
    have hk' : k < size / 2 := by omega
    exact ⟨_, interStep_filled ho hbl hbr hl hr hk', ⟨k + 1, by omega, rfl⟩, by simp only; omega⟩
  obtain ⟨s1, e1, ⟨k1, hk1, rfl⟩, c1⟩ := loop_ends
    (cond := fun s : Mem × Nat => unaligned [output + 2 * (s.2 : Int), right + (s.2 : Int), left + (s.2 : Int)] && decide (output + 2 * s.2 < last))
    (body := interStep left right output) _ (fun s => size / 2 - s.2)
    (scalar _ (fun s h => by simp only [Bool.and_eq_true, decide_eq_true_eq] at h; omega))
    (size + 1) (m, 0) ⟨0, by omega, by simp only [Nat.mul_zero, filled_zero]⟩ (by simp only; omega)
  rw [e1]
  simp only [Option.bind_eq_bind, Option.bind_some]
  have hal : output + 2 * (k1 : Int) < last → (output + 2 * (k1 : Int)) % 4 = 0 ∧ (left + (k1 : Int)) % 4 = 0 ∧ (right + (k1 : Int)) % 4 = 0 := by
    intro hlt
    simp only [hlt, decide_true, Bool.and_true] at c1
    have := unaligned_false.mp c1
    exact ⟨this _ (by simp), this _ (by simp), this _ (by simp)⟩
  obtain ⟨s2, e2, ⟨k2, hk2, rfl, h2⟩, c2⟩ := loop_ends (cond := fun s : Mem × Nat => decide (output + 2 * s.2 < last))
    (body := interVector left right output)
    (fun s => ∃ k, k ≤ size / 2 ∧ s = (filled m output (mixed m left right) (2 * k), k) ∧
      (output + 2 * (k : Int) < last → (output + 2 * (k : Int)) % 4 = 0 ∧ (left + (k : Int)) % 4 = 0 ∧ (right + (k : Int)) % 4 = 0))
    (fun s => size / 2 - s.2)
    (by
      rintro _ ⟨k, hk, rfl, hh⟩ hcond
      simp only [decide_eq_true_eq] at hcond
      obtain ⟨a1, a2, a3⟩ := hh hcond
      refine ⟨_, interVector_filled ho hbl hbr hl hr (by omega) a1 a2 a3, ⟨k + 4, by omega, rfl, fun _ => ?_⟩, by simp only; omega⟩
      push_cast; omega)
    (size + 1) (filled m output (mixed m left right) (2 * k1), k1) ⟨k1, hk1, rfl, hal⟩ (by simp only; omega)
  rw [e2]
  simp only [Option.bind_some]
  obtain ⟨s3, e3, ⟨k3, hk3, rfl⟩, c3⟩ := loop_ends (cond := fun s : Mem × Nat => decide (output + 2 * s.2 < output + size - 1))
    (body := interStep left right output) _ (fun s => size / 2 - s.2)
    (scalar _ (fun s h => by simpa only [decide_eq_true_eq] using h))
    (size + 1) (filled m output (mixed m left right) (2 * k2), k2) ⟨k2, hk2, rfl⟩ (by simp only; omega)
  rw [e3]
  simp only [decide_eq_false_iff_not] at c3
  have : 2 * k3 = size := by omega
  rw [this]
  rfl

theorem writeInterleavedScalar_ok (hev : size % 2 = 0) (ho : Buffer m output size) (hbl : Buffer m left (size / 2)) (hbr : Buffer m right (size / 2))
    (hl : Clear left (size / 2) output size) (hr : Clear right (size / 2) output size) :
    writeInterleavedScalar left right output size m = some (filled m output (mixed m left right) size) := by
  unfold writeInterleavedScalar
  obtain ⟨s3, e3, ⟨k3, hk3, rfl⟩, c3⟩ := loop_ends (cond := fun s : Mem × Nat => decide (output + 2 * s.2 < output + size - 1))
    (body := interStep left right output) (fun s => ∃ k, k ≤ size / 2 ∧ s = (filled m output (mixed m left right) (2 * k), k)) (fun s => size / 2 - s.2)
    (by
      rintro _ ⟨k, hk, rfl⟩ hcond
      simp only [decide_eq_true_eq] at hcond
      exact ⟨_, interStep_filled ho hbl hbr hl hr (by omega), ⟨k + 1, by omega, rfl⟩, by simp only; omega⟩)
    (size + 1) (m, 0) ⟨0, by omega, by simp only [Nat.mul_zero, filled_zero]⟩ (by simp only; omega)
  rw [e3]
  simp only [decide_eq_false_iff_not] at c3
  have : 2 * k3 = size := by omega
  rw [this]
  rfl

end

end Verif.Simd
