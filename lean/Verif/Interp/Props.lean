import Verif.Interp.Model
import Mathlib.Tactic.Linarith
import Mathlib.Tactic.Ring
import Mathlib.Tactic.FieldSimp
import Mathlib.Tactic.IntervalCases
import Mathlib.Tactic.Positivity

/-! # Interpolation of samples (C70) -/
namespace Verif.Interp

/-! ### Vectorized and generic versions -/

theorem hermite3_x4 (x : ℚ) : hermite3x4 x = hermite3 x := by
  simp only [hermite3x4, hermite3]
  generalize |x| = t
  rcases lt_trichotomy t 1 with h | h | h
  · simp [h, h.le]
  · subst h; norm_num
  · rcases lt_trichotomy t 2 with h2 | h2 | h2
    · simp [h.not_ge, h.le.not_gt, h2, h2.le]
    · subst h2; norm_num
    · simp [h.not_ge, h.le.not_gt, h2.not_ge, h2.le.not_gt]

theorem bspline3_x4 (x : ℚ) : bspline3x4 x = bspline3 x := by
  simp only [bspline3x4, bspline3]
  generalize |x| = t
  rcases lt_trichotomy t 1 with h | h | h
  · simp [h, h.le]
  · subst h; norm_num
  · rcases lt_trichotomy t 2 with h2 | h2 | h2
    · simp [h.not_ge, h.le.not_gt, h2, h2.le]
    · subst h2; norm_num
    · simp [h.not_ge, h.le.not_gt, h2.not_ge, h2.le.not_gt]

/-- The vectorized Hermite and B-spline interpolators compute the same as the generic ones, although they compare with `≤`. -/
theorem vectorized_same (v : Signal) (c : ℚ) :
    fourPointX4 hermite3x4 v c = fourPoint hermite3 v c ∧ fourPointX4 bspline3x4 v c = fourPoint bspline3 v c := by
  simp only [fourPointX4, fourPoint, hermite3_x4, bspline3_x4]
  constructor <;> ring

/-! ### The weights -/

theorem hermite_weights {c : ℚ} (h0 : 0 ≤ c) (h1 : c ≤ 1) :
    hermite3 (-1 - c) = 2 - 4 * (1 + c) + 5 / 2 * (1 + c) ^ 2 - 1 / 2 * (1 + c) ^ 3 ∧
    hermite3 (0 - c) = 1 - 5 / 2 * c ^ 2 + 3 / 2 * c ^ 3 ∧
    hermite3 (1 - c) = 1 - 5 / 2 * (1 - c) ^ 2 + 3 / 2 * (1 - c) ^ 3 ∧
    hermite3 (2 - c) = 2 - 4 * (2 - c) + 5 / 2 * (2 - c) ^ 2 - 1 / 2 * (2 - c) ^ 3 := by
  have a1 : |-1 - c| = 1 + c := by rw [abs_of_nonpos (by linarith)]; ring
  have a2 : |0 - c| = c := by rw [abs_of_nonpos (by linarith)]; ring
  have a3 : |1 - c| = 1 - c := abs_of_nonneg (by linarith)
  have a4 : |2 - c| = 2 - c := abs_of_nonneg (by linarith)
  simp only [hermite3, a1, a2, a3, a4]
  refine ⟨?_, ?_, ?_, ?_⟩
  · split_ifs with q1 q2
    · linarith
    · ring
    · have : c = 1 := by linarith
      subst this; norm_num
  · split_ifs with q1 q2
    · ring
    · have : c = 1 := by linarith
      subst this; norm_num
    · linarith
  · split_ifs with q1 q2
    · ring
    · have : c = 0 := by linarith
      subst this; norm_num
    · linarith
  · split_ifs with q1 q2
    · linarith
    · ring
    · have : c = 0 := by linarith
      subst this; norm_num

theorem bspline_weights {c : ℚ} (h0 : 0 ≤ c) (h1 : c ≤ 1) :
    bspline3 (-1 - c) = 1 / 6 * (1 - c) ^ 3 ∧
    bspline3 (0 - c) = 2 / 3 - c ^ 2 + 1 / 2 * c ^ 3 ∧
    bspline3 (1 - c) = 2 / 3 - (1 - c) ^ 2 + 1 / 2 * (1 - c) ^ 3 ∧
    bspline3 (2 - c) = 1 / 6 * c ^ 3 := by
  have a1 : |-1 - c| = 1 + c := by rw [abs_of_nonpos (by linarith)]; ring
  have a2 : |0 - c| = c := by rw [abs_of_nonpos (by linarith)]; ring
  have a3 : |1 - c| = 1 - c := abs_of_nonneg (by linarith)
  have a4 : |2 - c| = 2 - c := abs_of_nonneg (by linarith)
  simp only [bspline3, a1, a2, a3, a4]
  refine ⟨?_, ?_, ?_, ?_⟩
  · split_ifs with q1 q2
    · linarith
    · ring
    · have : c = 1 := by linarith
      subst this; norm_num
  · split_ifs with q1 q2
    · ring
    · have : c = 1 := by linarith
      subst this; norm_num
    · linarith
  · split_ifs with q1 q2
    · ring
    · have : c = 0 := by linarith
      subst this; norm_num
    · linarith
  · split_ifs with q1 q2
    · linarith
    · ring
    · have : c = 0 := by linarith
      subst this; norm_num

/-! ### What the interpolated value is -/

/-- Between two samples, the nearest, linear and Hermite interpolators go through both of them. -/
theorem passes_through (v : Signal) :
    (nearest v 0 = v 0 ∧ nearest v 1 = v 1) ∧ (linear v 0 = v 0 ∧ linear v 1 = v 1) ∧
      (fourPoint hermite3 v 0 = v 0 ∧ fourPoint hermite3 v 1 = v 1) := by
  refine ⟨by norm_num [nearest], by norm_num [linear], ?_⟩
  obtain ⟨a1, a2, a3, a4⟩ := hermite_weights (c := 0) (by norm_num) (by norm_num)
  obtain ⟨b1, b2, b3, b4⟩ := hermite_weights (c := 1) (by norm_num) (by norm_num)
  simp only [fourPoint, a1, a2, a3, a4, b1, b2, b3, b4]
  constructor <;> ring

/-- The B-spline does not: at a sample it gives an average with the neighbours. -/
theorem bspline_through_violated : ¬ ∀ v : Signal, fourPoint bspline3 v 0 = v 0 := by
  intro h
  have := h (fun i => if i = 0 then 1 else 0)
  revert this
  decide +kernel

/-- A signal that moves in a straight line is reproduced exactly by the linear, Hermite and B-spline interpolators. -/
theorem straight_lines {c : ℚ} (h0 : 0 ≤ c) (h1 : c ≤ 1) (a b : ℚ) (v : Signal) (hv : ∀ i : Int, v i = a + b * i) :
    linear v c = a + b * c ∧ fourPoint hermite3 v c = a + b * c ∧ fourPoint bspline3 v c = a + b * c := by
  obtain ⟨a1, a2, a3, a4⟩ := hermite_weights h0 h1
  obtain ⟨b1, b2, b3, b4⟩ := bspline_weights h0 h1
  simp only [linear, fourPoint, a1, a2, a3, a4, b1, b2, b3, b4, hv]
  push_cast
  refine ⟨by ring, by ring, by ring⟩

/-- A parabola is reproduced exactly by the Hermite interpolator. -/
theorem parabolas {c : ℚ} (h0 : 0 ≤ c) (h1 : c ≤ 1) (a b d : ℚ) (v : Signal) (hv : ∀ i : Int, v i = a + b * i + d * i ^ 2) :
    fourPoint hermite3 v c = a + b * c + d * c ^ 2 := by
  obtain ⟨a1, a2, a3, a4⟩ := hermite_weights h0 h1
  simp only [fourPoint, a1, a2, a3, a4, hv]
  push_cast
  ring

/-- Nearest, linear and B-spline values never leave the range of the samples they are made from. -/
theorem no_overshoot {c : ℚ} (h0 : 0 ≤ c) (h1 : c ≤ 1) {low high : ℚ} (v : Signal)
    (hv : ∀ i : Int, -1 ≤ i → i ≤ 2 → low ≤ v i ∧ v i ≤ high) :
    (low ≤ nearest v c ∧ nearest v c ≤ high) ∧ (low ≤ linear v c ∧ linear v c ≤ high) ∧
      (low ≤ fourPoint bspline3 v c ∧ fourPoint bspline3 v c ≤ high) := by
  have v0 := hv (-1) (by norm_num) (by norm_num)
  have v1 := hv 0 (by norm_num) (by norm_num)
  have v2 := hv 1 (by norm_num) (by norm_num)
  have v3 := hv 2 (by norm_num) (by norm_num)
  refine ⟨?_, ?_, ?_⟩
  · unfold nearest
    split
    · exact v2
    · exact v1
  · unfold linear
    constructor <;> nlinarith
  · obtain ⟨b1, b2, b3, b4⟩ := bspline_weights h0 h1
    have w1 : 0 ≤ bspline3 (-1 - c) := by rw [b1]; have : 0 ≤ 1 - c := by linarith
                                          positivity
    have w4 : 0 ≤ bspline3 (2 - c) := by rw [b4]; positivity
    have w2 : 0 ≤ bspline3 (0 - c) := by rw [b2]; nlinarith [mul_nonneg h0 h0, mul_nonneg (mul_nonneg h0 h0) h0]
    have w3 : 0 ≤ bspline3 (1 - c) := by
      rw [b3]
      have hc : 0 ≤ 1 - c := by linarith
      nlinarith [mul_nonneg hc hc, mul_nonneg (mul_nonneg hc hc) hc]
    have ws : bspline3 (-1 - c) + bspline3 (0 - c) + bspline3 (1 - c) + bspline3 (2 - c) = 1 := by
      rw [b1, b2, b3, b4]; ring
    simp only [fourPoint]
    generalize bspline3 (-1 - c) = x1 at *
    generalize bspline3 (0 - c) = x2 at *
    generalize bspline3 (1 - c) = x3 at *
    generalize bspline3 (2 - c) = x4 at *
    constructor
    · have := mul_le_mul_of_nonneg_left v0.1 w1
      have := mul_le_mul_of_nonneg_left v1.1 w2
      have := mul_le_mul_of_nonneg_left v2.1 w3
      have := mul_le_mul_of_nonneg_left v3.1 w4
      have e : low = x1 * low + x2 * low + x3 * low + x4 * low := by rw [← add_mul, ← add_mul, ← add_mul, ws]; ring
      linarith
    · have := mul_le_mul_of_nonneg_left v0.2 w1
      have := mul_le_mul_of_nonneg_left v1.2 w2
      have := mul_le_mul_of_nonneg_left v2.2 w3
      have := mul_le_mul_of_nonneg_left v3.2 w4
      have e : high = x1 * high + x2 * high + x3 * high + x4 * high := by rw [← add_mul, ← add_mul, ← add_mul, ws]; ring
      linarith

example : fourPoint hermite3 (fun i => i ^ 2) (1 / 4) = 1 / 16 := by decide +kernel
example : fourPoint bspline3 (fun i => 3 + 2 * i) (1 / 4) = 7 / 2 := by decide +kernel
/-- The Hermite interpolator does overshoot. -/
example : fourPoint hermite3 (fun i => if 0 ≤ i ∧ i ≤ 1 then 1 else 0) (1 / 2) = 9 / 8 := by decide +kernel

/-! ### Windowed sinc -/

/-- Where the table really is looked up for `x`: the scale is rounded to an integer. -/
def looked (points tableSize : Nat) (x : ℚ) : ℚ :=
  (x + points / 2) * (((tableSize - 1) / points * points : Nat) / ((tableSize : ℚ) - 1)) - points / 2

theorem position_bounds {points tableSize : Nat} {x : ℚ} (hx : -(points / 2 : ℚ) ≤ x) (hx' : x ≤ points / 2) :
    0 ≤ position points tableSize x ∧ position points tableSize x ≤ (((tableSize - 1) / points * points : Nat) : ℚ) := by
  unfold position
  have hq : (0 : ℚ) ≤ ((tableSize - 1) / points : Nat) := Nat.cast_nonneg _
  constructor
  · exact mul_nonneg (by linarith) hq
  · rw [Nat.cast_mul, mul_comm]
    exact mul_le_mul_of_nonneg_left (by linarith) hq

/-- Looking a weight up anywhere in the domain reads only entries of the table that were written, if the number of points does not
divide the size less one. -/
theorem sinc_reads_partial {f : ℚ → ℚ} {points tableSize extra : Nat} {x : ℚ} (hp : ¬ points ∣ tableSize - 1) (hs : 2 * extra ≤ tableSize)
    (hx : -(points / 2 : ℚ) ≤ x) (hx' : x ≤ points / 2) :
    (getUnchecked (sincTable f points tableSize extra) points tableSize x).isSome := by
  obtain ⟨b1, b2⟩ := position_bounds (tableSize := tableSize) hx hx'
  have hw : ∀ i, i < tableSize → (sincTable f points tableSize extra i).isSome := by
    intro i hi
    simp only [sincTable]
    split_ifs <;> rfl
  have hm : (tableSize - 1) / points * points < tableSize - 1 := by
    have h1 := Nat.div_mul_le_self (tableSize - 1) points
    rcases Nat.lt_or_eq_of_le h1 with h | h
    · exact h
    · exact absurd (Nat.dvd_of_mod_eq_zero (by have := Nat.div_add_mod (tableSize - 1) points; rw [mul_comm] at this; omega)) hp
  unfold getUnchecked
  simp only
  rw [if_neg (not_lt.mpr b1)]
  have hf : ⌊position points tableSize x⌋.toNat ≤ (tableSize - 1) / points * points := by
    have : ⌊position points tableSize x⌋ ≤ (((tableSize - 1) / points * points : Nat) : Int) := by
      have := Int.floor_le_floor b2
      rwa [Int.floor_natCast] at this
    omega
  obtain ⟨y0, h0⟩ := Option.isSome_iff_exists.mp (hw ⌊position points tableSize x⌋.toNat (by omega))
  obtain ⟨y1, h1⟩ := Option.isSome_iff_exists.mp (hw (⌊position points tableSize x⌋.toNat + 1) (by omega))
  rw [h0, h1]
  rfl

/-- All the windowed sinc interpolators of the program read only written entries, whatever the signal and the fraction. -/
theorem sinc_defined {f : ℚ → ℚ} {points : Nat} (hp : points ∈ sincPoints) {c : ℚ} (h0 : 0 ≤ c) (h1 : c ≤ 1) (v : Signal) :
    (sinc (sincTable f points sincTableSize sincExtra) points sincTableSize v c).isSome := by
  have hd : ¬ points ∣ sincTableSize - 1 := by
    simp only [sincPoints, List.mem_cons, List.not_mem_nil, or_false] at hp
    unfold sincTableSize
    rcases hp with rfl | rfl | rfl | rfl | rfl | rfl | rfl | rfl <;> omega
  have hev : points % 2 = 0 := by
    simp only [sincPoints, List.mem_cons, List.not_mem_nil, or_false] at hp
    omega
  unfold sinc
  simp only
  have key : ∀ (l : List Nat) (y : ℚ), (∀ i ∈ l, i < points) →
      (l.foldlM (fun (y : ℚ) (i : Nat) => do
        let h ← getUnchecked (sincTable f points sincTableSize sincExtra) points sincTableSize (((1 - (points / 2 : Nat) : Int) : ℚ) - c + i)
        return y + h * v ((1 - (points / 2 : Nat) : Int) + (i : Int))) y).isSome := by
    intro l
    induction l with
    | nil => intro y _; rfl
    | cons i l ih =>
      intro y hl
      have hi := hl i (by simp)
      have e : ((points / 2 : Nat) : ℚ) = (points : ℚ) / 2 := by
        obtain ⟨k, rfl⟩ : ∃ k, points = 2 * k := ⟨points / 2, by omega⟩
        rw [Nat.mul_div_cancel_left k (by norm_num)]
        push_cast
        ring
      have e' : ((1 - (points / 2 : Nat) : Int) : ℚ) = 1 - (points : ℚ) / 2 := by
        rw [Int.cast_sub, Int.cast_one, Int.cast_natCast, e]
      have hi' : (i : ℚ) + 1 ≤ points := by exact_mod_cast hi
      have hi0 : (0 : ℚ) ≤ i := Nat.cast_nonneg _
      have hg := sinc_reads_partial (f := f) (points := points) (tableSize := sincTableSize) (extra := sincExtra)
        (x := ((1 - (points / 2 : Nat) : Int) : ℚ) - c + i) hd (by decide)
        (by rw [e']; linarith) (by rw [e']; linarith)
      obtain ⟨h, hh⟩ := Option.isSome_iff_exists.mp hg
      rw [List.foldlM_cons, hh]
      exact ih _ (fun j hj => hl j (by simp [hj]))
  exact key _ _ (fun i hi => List.mem_range.mp hi)

/-- The table holds the samples of the function, except for the entries overwritten at its start. -/
theorem sinc_table_partial {f : ℚ → ℚ} {points tableSize extra i : Nat} (hi : i < tableSize) (he : i < extra ∨ 2 * extra ≤ i) :
    sincTable f points tableSize extra i = some (f (i * (points / ((tableSize : ℚ) - 1)) - points / 2)) := by
  simp only [sincTable]
  rw [if_neg (by omega), if_pos hi, div_neg, ← sub_eq_add_neg]

/-- Entry 4 does not hold the function at its place, and the entry after the table is not written. -/
theorem sinc_table_violated :
    sincTable id 8 sincTableSize sincExtra 4 ≠ some (4 * (8 / (65536 - 1)) - 8 / 2) ∧ sincTable id 8 sincTableSize sincExtra sincTableSize = none := by
  decide +kernel

/-- What a lookup gives for a function that moves in a straight line (linear interpolation should be exact): the function, but at
`looked` instead of `x`. -/
theorem sinc_lookup_partial {a b : ℚ} {points tableSize extra : Nat} {x : ℚ} (hp : ¬ points ∣ tableSize - 1) (hs : 2 * extra ≤ tableSize)
    (hx : -(points / 2 : ℚ) ≤ x) (hx' : x ≤ points / 2) (hpos : (2 * extra : ℚ) ≤ position points tableSize x) :
    getUnchecked (sincTable (fun t => a + b * t) points tableSize extra) points tableSize x = some (a + b * looked points tableSize x) := by
  obtain ⟨b1, b2⟩ := position_bounds (tableSize := tableSize) hx hx'
  have hm : (tableSize - 1) / points * points < tableSize - 1 := by
    have h1 := Nat.div_mul_le_self (tableSize - 1) points
    rcases Nat.lt_or_eq_of_le h1 with h | h
    · exact h
    · exact absurd (Nat.dvd_of_mod_eq_zero (by have := Nat.div_add_mod (tableSize - 1) points; rw [mul_comm] at this; omega)) hp
  have hf : ⌊position points tableSize x⌋.toNat ≤ (tableSize - 1) / points * points := by
    have : ⌊position points tableSize x⌋ ≤ (((tableSize - 1) / points * points : Nat) : Int) := by
      have := Int.floor_le_floor b2
      rwa [Int.floor_natCast] at this
    omega
  have hl : 2 * extra ≤ ⌊position points tableSize x⌋.toNat := by
    have : ((2 * extra : Nat) : Int) ≤ ⌊position points tableSize x⌋ := by
      rw [Int.le_floor]; push_cast; exact hpos
    omega
  unfold getUnchecked
  simp only
  rw [if_neg (not_lt.mpr b1), sinc_table_partial (by omega) (Or.inr hl), sinc_table_partial (by omega) (Or.inr (by omega))]
  simp only [Option.bind_eq_bind, Option.bind_some, Option.pure_def, Option.some.injEq]
  have hn : ((tableSize : ℚ) - 1) ≠ 0 := by
    have : (1 : ℚ) < tableSize := by
      have : 1 < tableSize := by omega
      exact_mod_cast this
    linarith
  generalize hi : ⌊position points tableSize x⌋.toNat = i
  have e : position points tableSize x * (points / ((tableSize : ℚ) - 1)) - points / 2 = looked points tableSize x := by
    unfold looked position
    rw [Nat.cast_mul]
    field_simp
  rw [← e]
  push_cast
  ring

theorem looked_centre {points : Nat} (hp : points ∈ sincPoints) : looked points sincTableSize 0 < 0 ∧ 8 ≤ position points sincTableSize 0 ∧
    ¬ points ∣ sincTableSize - 1 := by
  simp only [sincPoints, List.mem_cons, List.not_mem_nil, or_false] at hp
  rcases hp with rfl | rfl | rfl | rfl | rfl | rfl | rfl | rfl <;> (unfold looked position sincTableSize; norm_num)

/-- The lookup is off: already at the centre each of the interpolators uses a point left of it, so even a straight line is not read
exactly, and a sample is not reproduced at fraction 0. -/
theorem sinc_lookup_violated {points : Nat} (hp : points ∈ sincPoints) :
    ∃ y, getUnchecked (sincTable (fun t => t) points sincTableSize sincExtra) points sincTableSize 0 = some y ∧ y < 0 := by
  obtain ⟨h1, h2, h3⟩ := looked_centre hp
  have hq : (0 : ℚ) ≤ points / 2 := by positivity
  have := sinc_lookup_partial (a := 0) (b := 1) (points := points) (tableSize := sincTableSize) (extra := sincExtra) (x := 0) h3 (by decide)
    (by linarith) hq (by unfold sincExtra; push_cast; linarith)
  simp only [zero_add, one_mul] at this
  exact ⟨_, this, h1⟩

/-- The error of the place is never to the right, and below `points² / (tableSize - 1)`. -/
theorem sinc_error {points tableSize : Nat} {x : ℚ} (hp : 0 < points) (ht : 1 < tableSize) (hx : -(points / 2 : ℚ) ≤ x) (hx' : x ≤ points / 2) :
    looked points tableSize x ≤ x ∧ x - looked points tableSize x ≤ points * points / ((tableSize : ℚ) - 1) := by
  have hn : 0 < ((tableSize : ℚ) - 1) := by
    have : (1 : ℚ) < tableSize := by exact_mod_cast ht
    linarith
  set w : ℚ := (((tableSize - 1) / points * points : Nat) : ℚ) / ((tableSize : ℚ) - 1) with hw
  have hc : ((tableSize - 1 : Nat) : ℚ) = (tableSize : ℚ) - 1 := by
    rw [Nat.cast_sub ht.le]; norm_num
  have w1 : w ≤ 1 := by
    rw [hw, div_le_one hn, ← hc]
    exact_mod_cast Nat.div_mul_le_self (tableSize - 1) points
  have w2 : 1 - w ≤ points / ((tableSize : ℚ) - 1) := by
    rw [hw, sub_le_iff_le_add, ← add_div, one_le_div hn, ← hc]
    have h1 := Nat.div_add_mod (tableSize - 1) points
    have h2 := Nat.mod_lt (tableSize - 1) hp
    rw [mul_comm] at h1
    have : tableSize - 1 ≤ points + (tableSize - 1) / points * points := by omega
    exact_mod_cast this
  have hl : looked points tableSize x = (x + points / 2) * w - points / 2 := rfl
  rw [hl]
  have hx0 : 0 ≤ x + points / 2 := by linarith
  have hx1 : x + points / 2 ≤ points := by linarith
  constructor
  · nlinarith
  · have e : x - ((x + points / 2) * w - points / 2) = (x + points / 2) * (1 - w) := by ring
    rw [e, mul_div_assoc]
    exact mul_le_mul hx1 w2 (by linarith) (Nat.cast_nonneg _)

example : looked 8 sincTableSize 0 = 4 * 65528 / 65535 - 4 := by norm_num [looked, sincTableSize]
example : position 8 sincTableSize 0 = 32764 := by norm_num [position, sincTableSize]

end Verif.Interp
