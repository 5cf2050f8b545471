import Verif.Pan.Model
import Mathlib.Analysis.SpecialFunctions.Trigonometric.Bounds

/-! # Panning and stereo width (C71) -/
namespace Verif.Pan
open Real

/-- The angle of one step of the table. -/
noncomputable def θ : ℝ := π / 2 / 4094

theorem θ_pos : 0 < θ := by unfold θ; positivity
theorem θ_full : 4094 * θ = π / 2 := by unfold θ; ring

theorem panData_eq {i : Int} (h0 : 0 ≤ i) (h1 : i ≤ 4094) : panData i = some (cos (i * θ)) := by
  unfold panData θ panSize
  rw [if_neg (by omega), if_pos (by push_cast; omega)]
  norm_num

/-- The entry used for a position. -/
noncomputable def entry (p : ℝ) : Int := ⌊1 / 2 + p * 4094⌋

theorem entry_bounds {p : ℝ} (h0 : 0 ≤ p) (h1 : p ≤ 1) : 0 ≤ entry p ∧ entry p ≤ 4094 := by
  unfold entry
  constructor
  · apply Int.floor_nonneg.mpr; positivity
  · have : ⌊1 / 2 + p * 4094⌋ < 4095 := by
      rw [Int.floor_lt]; push_cast; linarith
    omega

/-- Every position inside the range finds an element of the table. -/
theorem lookup_inside {p : ℝ} (h0 : 0 ≤ p) (h1 : p ≤ 1) : panLookup p = some (cos (entry p * θ)) := by
  obtain ⟨b1, b2⟩ := entry_bounds h0 h1
  unfold panLookup lroundPositive
  have e : (panSize : ℝ) - 1 = 4094 := by norm_num [panSize]
  rw [e]
  exact panData_eq b1 b2

theorem clamp_bounds (x : ℝ) : 0 ≤ clamp x 0 1 ∧ clamp x 0 1 ≤ 1 := by
  unfold clamp
  exact ⟨le_max_left _ _, max_le (by norm_num) (min_le_right _ _)⟩

/-- The two gains of a pan setting. -/
noncomputable def gains (pan : ℝ) : ℝ × ℝ :=
  (cos (entry (clamp ((pan + 1) * (1 / 2)) 0 1) * θ), cos (entry (1 - clamp ((pan + 1) * (1 / 2)) 0 1) * θ))

/-- Panning multiplies both channels, for every setting, and never reads outside of the table. -/
theorem pan_defined (pan left right : ℝ) : tickPan pan left right = some (left * (gains pan).1, right * (gains pan).2) := by
  obtain ⟨b1, b2⟩ := clamp_bounds ((pan + 1) * (1 / 2))
  simp only [tickPan, gains]
  rw [lookup_inside b1 b2, lookup_inside (by linarith) (by linarith)]
  rfl

theorem entry_zero : entry 0 = 0 := by norm_num [entry]
theorem entry_one : entry 1 = 4094 := by
  unfold entry
  rw [Int.floor_eq_iff]; norm_num

theorem cos_full : cos ((4094 : ℤ) * θ) = 0 := by
  have : ((4094 : ℤ) : ℝ) * θ = π / 2 := by push_cast; exact θ_full
  rw [this, cos_pi_div_two]

/-- At and beyond the ends one channel is untouched and the other silent. -/
theorem pan_ends {pan : ℝ} (left right : ℝ) :
    (pan ≤ -1 → tickPan pan left right = some (left, 0)) ∧ (1 ≤ pan → tickPan pan left right = some (0, right)) := by
  constructor
  · intro h
    have e : clamp ((pan + 1) * (1 / 2)) 0 1 = 0 := by
      unfold clamp; rw [min_eq_left (by linarith), max_eq_left (by linarith)]
    rw [pan_defined, gains, e, sub_zero, entry_zero, entry_one, cos_full]
    simp
  · intro h
    have e : clamp ((pan + 1) * (1 / 2)) 0 1 = 1 := by
      unfold clamp; rw [min_eq_right (by linarith), max_eq_right (by norm_num)]
    rw [pan_defined, gains, e, sub_self, entry_zero, entry_one, cos_full]
    simp

/-- In the middle both channels are multiplied by the square root of one half. -/
theorem pan_middle (left right : ℝ) : tickPan 0 left right = some (left * (√2 / 2), right * (√2 / 2)) := by
  have e : clamp ((0 + 1) * (1 / 2)) 0 1 = 1 / 2 := by
    unfold clamp; rw [min_eq_left (by norm_num), max_eq_right (by norm_num)]; norm_num
  have h : entry (1 / 2) = 2047 := by
    unfold entry; rw [Int.floor_eq_iff]; norm_num
  have h' : ((2047 : ℤ) : ℝ) * θ = π / 4 := by unfold θ; push_cast; ring
  have e2 : (1 : ℝ) - 1 / 2 = 1 / 2 := by norm_num
  rw [pan_defined, gains, e, e2, h, h', cos_pi_div_four]

/-- The entries of the two channels are complementary unless the position is exactly between two entries. -/
theorem entry_compl {p : ℝ} (hh : 1 / 2 + p * 4094 ≠ (entry p : ℝ)) : entry (1 - p) = 4094 - entry p := by
  have hf : (entry p : ℝ) ≤ 1 / 2 + p * 4094 := Int.floor_le _
  have hlt : 1 / 2 + p * 4094 < entry p + 1 := Int.lt_floor_add_one _
  have hs : (entry p : ℝ) < 1 / 2 + p * 4094 := lt_of_le_of_ne hf (Ne.symm hh)
  unfold entry at hf hlt hs ⊢
  rw [Int.floor_eq_iff]
  push_cast
  constructor <;> linarith

/-- The power of the two channels together is the same for every setting that does not fall exactly between two entries of the table. -/
theorem pan_power_partial {pan : ℝ}
    (hh : ∀ k : ℤ, 1 / 2 + clamp ((pan + 1) * (1 / 2)) 0 1 * 4094 ≠ k) (x : ℝ) :
    ∃ l r, tickPan pan x x = some (l, r) ∧ l ^ 2 + r ^ 2 = x ^ 2 := by
  refine ⟨_, _, pan_defined pan x x, ?_⟩
  simp only [gains]
  rw [entry_compl (hh _)]
  have : ((4094 - entry (clamp ((pan + 1) * (1 / 2)) 0 1) : ℤ) : ℝ) * θ = π / 2 - entry (clamp ((pan + 1) * (1 / 2)) 0 1) * θ := by
    push_cast; rw [sub_mul, θ_full]
  rw [this, cos_pi_div_two_sub]
  have := sin_sq_add_cos_sq (entry (clamp ((pan + 1) * (1 / 2)) 0 1) * θ)
  nlinarith

/-- Exactly between two entries both channels round the same way, and some power is lost. -/
theorem pan_power_violated : ∃ pan : ℝ, ∃ l r, tickPan pan 1 1 = some (l, r) ∧ l ^ 2 + r ^ 2 < 1 := by
  have e : clamp ((1 / 4094 - 1 + 1) * (1 / 2)) 0 1 = 1 / 8188 := by
    unfold clamp; rw [min_eq_left (by norm_num), max_eq_right (by norm_num)]; norm_num
  have h1 : entry (1 / 8188) = 1 := by
    unfold entry; rw [Int.floor_eq_iff]; norm_num
  have h2 : entry (1 - 1 / 8188) = 4094 := by
    unfold entry; rw [Int.floor_eq_iff]; norm_num
  refine ⟨1 / 4094 - 1, _, _, pan_defined _ 1 1, ?_⟩
  simp only [gains]
  rw [e, h1, h2, cos_full]
  have hc : cos (((1 : ℤ) : ℝ) * θ) < 1 := by
    have := cos_lt_cos_of_nonneg_of_le_pi_div_two (x := 0) (y := ((1 : ℤ) : ℝ) * θ) le_rfl
      (by push_cast; rw [one_mul]; have := θ_full; have := θ_pos; linarith) (by push_cast; rw [one_mul]; exact θ_pos)
    rwa [cos_zero] at this
  have hc0 : 0 ≤ cos (((1 : ℤ) : ℝ) * θ) := by
    apply cos_nonneg_of_neg_pi_div_two_le_of_le
    · have := θ_pos; have := pi_pos; push_cast; linarith
    · have := θ_full; have := θ_pos; push_cast; linarith
  nlinarith

theorem clamp_mono {x y : ℝ} (h : x ≤ y) : clamp x 0 1 ≤ clamp y 0 1 := by
  unfold clamp
  exact max_le_max le_rfl (min_le_min h le_rfl)

theorem entry_mono {p q : ℝ} (h : p ≤ q) : entry p ≤ entry q := by
  unfold entry
  exact Int.floor_le_floor (by linarith)

theorem cos_entry_anti {p q : ℝ} (h : p ≤ q) (h0 : 0 ≤ p) (h1 : q ≤ 1) : cos (entry q * θ) ≤ cos (entry p * θ) := by
  obtain ⟨a1, a2⟩ := entry_bounds h0 (h.trans h1)
  obtain ⟨b1, b2⟩ := entry_bounds (h0.trans h) h1
  have m : (entry p : ℝ) ≤ entry q := by exact_mod_cast entry_mono h
  have a1' : (0 : ℝ) ≤ entry p := by exact_mod_cast a1
  have b2' : (entry q : ℝ) ≤ 4094 := by exact_mod_cast b2
  have t := θ_pos
  apply cos_le_cos_of_nonneg_of_le_pi
  · positivity
  · have := θ_full; have := pi_pos; nlinarith
  · exact mul_le_mul_of_nonneg_right m t.le

/-- Panning further to the right never makes the left channel louder nor the right channel quieter; both gains stay between 0 and 1. -/
theorem pan_monotone {a b : ℝ} (h : a ≤ b) :
    (gains b).1 ≤ (gains a).1 ∧ (gains a).2 ≤ (gains b).2 ∧ (0 ≤ (gains b).1 ∧ (gains a).1 ≤ 1) ∧ 0 ≤ (gains a).2 ∧ (gains b).2 ≤ 1 := by
  have hm : clamp ((a + 1) * (1 / 2)) 0 1 ≤ clamp ((b + 1) * (1 / 2)) 0 1 := clamp_mono (by linarith)
  obtain ⟨a1, a2⟩ := clamp_bounds ((a + 1) * (1 / 2))
  obtain ⟨b1, b2⟩ := clamp_bounds ((b + 1) * (1 / 2))
  simp only [gains]
  have low : ∀ p : ℝ, 0 ≤ p → p ≤ 1 → 0 ≤ cos (entry p * θ) := fun p h0 h1 => by
    have := cos_entry_anti h1 h0 le_rfl
    rwa [entry_one, cos_full] at this
  exact ⟨cos_entry_anti hm a1 b2, cos_entry_anti (by linarith) (by linarith) (by linarith), ⟨low _ b1 b2, cos_le_one _⟩,
    low _ (by linarith) (by linarith), cos_le_one _⟩

/-- The gains are those of the exact law (cosine and sine of the position) up to half a step of the table. -/
theorem pan_accuracy {pan : ℝ} (h0 : -1 ≤ pan) (h1 : pan ≤ 1) :
    |(gains pan).1 - cos (π / 4 * (pan + 1))| ≤ θ / 2 ∧ |(gains pan).2 - sin (π / 4 * (pan + 1))| ≤ θ / 2 := by
  have e : clamp ((pan + 1) * (1 / 2)) 0 1 = (pan + 1) * (1 / 2) := by
    unfold clamp; rw [min_eq_left (by linarith), max_eq_right (by linarith)]
  have near : ∀ p : ℝ, |cos (entry p * θ) - cos (p * (π / 2))| ≤ θ / 2 := by
    intro p
    have h := abs_cos_sub_cos_le (entry p * θ) (p * (π / 2))
    refine h.trans ?_
    have e : (entry p : ℝ) * θ - p * (π / 2) = (entry p - p * 4094) * θ := by rw [← θ_full]; ring
    rw [e, abs_mul, abs_of_pos θ_pos]
    have hf : (entry p : ℝ) ≤ 1 / 2 + p * 4094 := Int.floor_le _
    have hlt : 1 / 2 + p * 4094 < entry p + 1 := Int.lt_floor_add_one _
    have : |(entry p : ℝ) - p * 4094| ≤ 1 / 2 := by rw [abs_le]; constructor <;> linarith
    nlinarith [θ_pos]
  simp only [gains, e]
  constructor
  · have := near ((pan + 1) * (1 / 2))
    rwa [show (pan + 1) * (1 / 2) * (π / 2) = π / 4 * (pan + 1) by ring] at this
  · have := near (1 - (pan + 1) * (1 / 2))
    rwa [show (1 - (pan + 1) * (1 / 2)) * (π / 2) = π / 2 - π / 4 * (pan + 1) by ring, cos_pi_div_two_sub] at this

/-- Width 1 leaves the channels alone, width -1 exchanges them, width 0 makes them equal. -/
theorem width_settings (l r : ℝ) :
    (∀ w, 1 ≤ w → tickWidth w l r = some (l, r)) ∧ (∀ w, w ≤ -1 → tickWidth w l r = some (r, l)) ∧
      tickWidth 0 l r = some ((l + r) * (√2 / 2), (l + r) * (√2 / 2)) := by
  have def_ : ∀ w, tickWidth w l r = some (l * (gains w).2 + r * (gains w).1, l * (gains w).1 + r * (gains w).2) := by
    intro w
    obtain ⟨b1, b2⟩ := clamp_bounds ((w + 1) * (1 / 2))
    simp only [tickWidth, gains]
    rw [lookup_inside b1 b2, lookup_inside (by linarith) (by linarith)]
    rfl
  refine ⟨fun w hw => ?_, fun w hw => ?_, ?_⟩
  · have e : clamp ((w + 1) * (1 / 2)) 0 1 = 1 := by
      unfold clamp; rw [min_eq_right (by linarith), max_eq_right (by norm_num)]
    rw [def_, gains, e, sub_self, entry_zero, entry_one, cos_full]
    simp
  · have e : clamp ((w + 1) * (1 / 2)) 0 1 = 0 := by
      unfold clamp; rw [min_eq_left (by linarith), max_eq_left (by linarith)]
    rw [def_, gains, e, sub_zero, entry_zero, entry_one, cos_full]
    simp
  · have e : clamp ((0 + 1) * (1 / 2)) 0 1 = 1 / 2 := by
      unfold clamp; rw [min_eq_left (by norm_num), max_eq_right (by norm_num)]; norm_num
    have h : entry (1 / 2) = 2047 := by
      unfold entry; rw [Int.floor_eq_iff]; norm_num
    have h' : ((2047 : ℤ) : ℝ) * θ = π / 4 := by unfold θ; push_cast; ring
    have e2 : (1 : ℝ) - 1 / 2 = 1 / 2 := by norm_num
    rw [def_, gains, e, e2, h, h', cos_pi_div_four]
    congr 2 <;> ring

/-- Settings where the power is exact: a quarter to the right. -/
example : ∀ k : ℤ, 1 / 2 + clamp ((1 / 3 + 1) * (1 / 2)) 0 1 * 4094 ≠ (k : ℝ) := by
  intro k hk
  have e : clamp ((1 / 3 + 1) * (1 / 2)) 0 1 = 2 / 3 := by
    unfold clamp; rw [min_eq_left (by norm_num), max_eq_right (by norm_num)]; norm_num
  rw [e] at hk
  have : (16379 : ℝ) = 6 * k := by linarith
  have h2 : (16379 : ℤ) = 6 * k := by exact_mod_cast this
  omega

end Verif.Pan
