import Verif.Crossfade.Model
import Mathlib.Tactic.Linarith
import Mathlib.Tactic.FieldSimp
import Mathlib.Tactic.NormNum

/-! C41: crossfade gains. -/
namespace Verif.Crossfade

theorem shape_mem (c : Curve) {x : ℝ} (h0 : 0 ≤ x) (h1 : x ≤ 1) : 0 ≤ shape c x ∧ shape c x ≤ 1 := by
  cases c with
  | gain => exact ⟨h0, h1⟩
  | power => exact ⟨Real.sqrt_nonneg _, Real.sqrt_le_one.mpr h1⟩

theorem shape_mono (c : Curve) {x y : ℝ} (h : x ≤ y) : shape c x ≤ shape c y := by
  cases c with
  | gain => exact h
  | power => exact Real.sqrt_le_sqrt h

theorem shape_one (c : Curve) : shape c 1 = 1 := by cases c <;> simp [shape]

theorem shape_zero (c : Curve) : shape c 0 = 0 := by cases c <;> simp [shape]

/-- A fade-in is right on the set `V` of values: gains in [0,1], growing with the value, 0 up to `start`, 1 from `stop` on. -/
structure FadesIn (V : Set ℝ) (g : ℝ → ℝ) (start stop : ℝ) : Prop where
  mem : ∀ v ∈ V, 0 ≤ g v ∧ g v ≤ 1
  mono : ∀ v ∈ V, ∀ w ∈ V, v ≤ w → g v ≤ g w
  before : ∀ v ∈ V, v < start → g v = 0
  after : ∀ v ∈ V, stop ≤ v → g v = 1

/-- A fade-out is right: gains in [0,1], falling with the value, 1 up to `start`, 0 from `stop` on. -/
structure FadesOut (V : Set ℝ) (g : ℝ → ℝ) (start stop : ℝ) : Prop where
  mem : ∀ v ∈ V, 0 ≤ g v ∧ g v ≤ 1
  anti : ∀ v ∈ V, ∀ w ∈ V, v ≤ w → g w ≤ g v
  before : ∀ v ∈ V, v ≤ start → g v = 1
  after : ∀ v ∈ V, stop ≤ v → g v = 0

/-- If the ramp is complete for the values below `stop`, the fade-in is right. -/
theorem crossfadeIn_fades (V : Set ℝ) (start stop length gap : ℝ) (c : Curve) (hpos : 0 < length - gap)
    (hend : start + (length - gap) ≤ stop) (hV : ∀ v ∈ V, v < stop → v ≤ start + (length - gap)) :
    FadesIn V (fun v => crossfadeIn start stop length gap v c) start (start + (length - gap)) := by
  have ramp : ∀ v ∈ V, start ≤ v → v < stop → 0 ≤ (v - start) / (length - gap) ∧ (v - start) / (length - gap) ≤ 1 := by
    intro v hv h1 h2
    refine ⟨div_nonneg (by linarith) hpos.le, ?_⟩
    rw [div_le_one hpos]
    have := hV v hv h2
    linarith
  have val : ∀ v, crossfadeIn start stop length gap v c =
      if v < start then 0 else if v < stop then shape c ((v - start) / (length - gap)) else 1 := by
    intro v
    unfold crossfadeIn
    rw [if_neg (show ¬length - gap ≤ 0 by linarith)]
  refine ⟨?_, ?_, ?_, ?_⟩
  · intro v hv
    simp only [val]
    split
    · norm_num
    · split
      · exact shape_mem c (ramp v hv (by linarith) (by assumption)).1 (ramp v hv (by linarith) (by assumption)).2
      · norm_num
  · intro v hv w hw hvw
    simp only [val]
    by_cases h1 : v < start
    · rw [if_pos h1]
      split
      · norm_num
      · split
        · exact (shape_mem c (ramp w hw (by linarith) (by assumption)).1 (ramp w hw (by linarith) (by assumption)).2).1
        · norm_num
    · rw [if_neg h1, if_neg (show ¬w < start by linarith)]
      by_cases h2 : v < stop
      · rw [if_pos h2]
        split
        · exact shape_mono c (by rw [div_le_div_iff_of_pos_right hpos]; linarith)
        · exact (shape_mem c (ramp v hv (by linarith) h2).1 (ramp v hv (by linarith) h2).2).2
      · rw [if_neg h2, if_neg (show ¬w < stop by linarith)]
  · intro v hv h
    simp only [val, if_pos h]
  · intro v hv h
    simp only [val]
    rw [if_neg (by linarith)]
    split
    · rename_i h2
      have : v = start + (length - gap) := le_antisymm (hV v hv h2) h
      rw [this, show start + (length - gap) - start = length - gap by ring, div_self hpos.ne', shape_one]
    · rfl

theorem crossfadeOut_fades (start length gap : ℝ) (c : Curve) (hpos : 0 < length - gap) :
    FadesOut Set.univ (fun v => crossfadeOut start length gap v c) start (start + (length - gap)) := by
  have val : ∀ v, crossfadeOut start length gap v c = if v > start then
      (if (v - start) / (length - gap) > 1 then 0 else shape c (1 - (v - start) / (length - gap))) else 1 := by
    intro v
    unfold crossfadeOut
    rw [if_neg (show ¬length - gap ≤ 0 by linarith)]
  have ramp : ∀ v, start < v → ¬(v - start) / (length - gap) > 1 → 0 ≤ 1 - (v - start) / (length - gap) ∧ 1 - (v - start) / (length - gap) ≤ 1 := by
    intro v h1 h2
    have := div_nonneg (show 0 ≤ v - start by linarith) hpos.le
    constructor <;> linarith
  refine ⟨?_, ?_, ?_, ?_⟩
  · intro v _
    simp only [val]
    split
    · split
      · norm_num
      · exact shape_mem c (ramp v (by assumption) (by assumption)).1 (ramp v (by assumption) (by assumption)).2
    · norm_num
  · intro v _ w _ hvw
    simp only [val]
    by_cases h1 : v > start
    · rw [if_pos h1, if_pos (show w > start by linarith)]
      have hle : (v - start) / (length - gap) ≤ (w - start) / (length - gap) := by
        rw [div_le_div_iff_of_pos_right hpos]; linarith
      by_cases h2 : (v - start) / (length - gap) > 1
      · rw [if_pos h2, if_pos (by linarith)]
      · rw [if_neg h2]
        split
        · exact (shape_mem c (ramp v h1 h2).1 (ramp v h1 h2).2).1
        · exact shape_mono c (by linarith)
    · rw [if_neg h1]
      split
      · split
        · norm_num
        · exact (shape_mem c (ramp w (by assumption) (by assumption)).1 (ramp w (by assumption) (by assumption)).2).2
      · norm_num
  · intro v _ h
    simp only [val, if_neg (not_lt.mpr h)]
  · intro v _ h
    simp only [val]
    rw [if_pos (by linarith)]
    have h1 : 1 ≤ (v - start) / (length - gap) := by rw [le_div_iff₀ hpos]; linarith
    split
    · rfl
    · have : (v - start) / (length - gap) = 1 := le_antisymm (by linarith) h1
      rw [this, sub_self, shape_zero]

theorem keyLength_le {lo hi : Nat} (h : lo ≤ hi) (hh : hi < 256) : (keyLength lo hi : ℝ) = (hi : ℝ) - lo := by
  have : keyLength lo hi = hi - lo := by
    unfold keyLength
    rw [Int.emod_eq_of_lt (by omega) (by omega)]; omega
  rw [this]; push_cast [h]; rfl

/-- The keys, as values. -/
def keys : Set ℝ := {v | ∃ k : Int, v = k}

/-- The values with 7 bits of resolution. -/
def sevenBit : Set ℝ := {v | ∃ k : Nat, k ≤ 127 ∧ v = (k : ℝ) / 127}

/-- **C41, keys.** `xfin_lokey=lo xfin_hikey=hi` fades in from `lo` to `hi`, for all keys and both curves. -/
theorem key_fade_in (lo hi : Nat) (h : lo < hi) (hh : hi < 256) (c : Curve) :
    FadesIn keys (fun v => crossfadeIn lo hi (keyLength lo hi) 0 v c) lo hi := by
  have hl := keyLength_le h.le hh
  have hp : (lo : ℝ) < hi := by exact_mod_cast h
  have := crossfadeIn_fades keys lo hi (keyLength lo hi) 0 c (by rw [hl]; linarith) (by rw [hl]; linarith)
    (fun v _ hv => by rw [hl]; linarith)
  rwa [hl, show (lo : ℝ) + ((hi : ℝ) - lo - 0) = hi by ring, ← hl] at this

theorem keyIn_eq (lo hi : Nat) (key : Int) (c : Curve) : keyIn lo hi key c = (fun v => crossfadeIn lo hi (keyLength lo hi) 0 v c) key := rfl

example : keyIn 60 64 62 .gain = 1 / 2 ∧ keyIn 60 64 60 .power = 0 ∧ keyIn 60 64 64 .power = 1 := by
  unfold keyIn crossfadeIn
  rw [keyLength_le (by norm_num) (by norm_num)]
  norm_num [shape]

/-- **C41, keys.** `xfout_lokey=lo xfout_hikey=hi` fades out from `lo` to `hi`. -/
theorem key_fade_out (lo hi : Nat) (h : lo < hi) (hh : hi < 256) (c : Curve) :
    FadesOut keys (fun v => crossfadeOut lo (keyLength lo hi) 0 v c) lo hi := by
  have hl := keyLength_le h.le hh
  have hp : (lo : ℝ) < hi := by exact_mod_cast h
  have := crossfadeOut_fades lo (keyLength lo hi) 0 c (by rw [hl]; linarith)
  rw [hl, show (lo : ℝ) + ((hi : ℝ) - lo - 0) = hi by ring, ← hl] at this
  exact ⟨fun v _ => this.mem v trivial, fun v _ w _ => this.anti v trivial w trivial, fun v _ => this.before v trivial,
    fun v _ => this.after v trivial⟩

example : keyOut 60 64 62 .gain = 1 / 2 ∧ keyOut 60 64 60 .power = 1 ∧ keyOut 60 64 70 .power = 0 := by
  unfold keyOut crossfadeOut
  rw [keyLength_le (by norm_num) (by norm_num)]
  norm_num [shape]

theorem upper_sub {lo hi : Nat} (h : hi ≤ 126) : upper hi - lower lo - 1 / 127 = ((hi : ℝ) - lo) / 127 := by
  unfold upper lower; rw [if_pos h]; ring

/-- **C41, velocity and controllers.** `xfin_lo…=lo xfin_hi…=hi` (up to 126) fades in from `lo` to `hi` on the values of 7 bits. -/
theorem value_fade_in_partial (lo hi : Nat) (h : lo < hi) (hh : hi ≤ 126) (c : Curve) :
    FadesIn sevenBit (fun v => valueIn lo hi v c) ((lo : ℝ) / 127) ((hi : ℝ) / 127) := by
  have hs := upper_sub (lo := lo) hh
  have hp : (lo : ℝ) < hi := by exact_mod_cast h
  have hst : lower lo + ((hi : ℝ) - lo) / 127 = (hi : ℝ) / 127 := by unfold lower; ring
  have := crossfadeIn_fades sevenBit (lower lo) (upper hi) (upper hi - lower lo) (1 / 127) c
    (by rw [hs]; exact div_pos (by linarith) (by norm_num))
    (by rw [hs, hst]; unfold upper; rw [if_pos hh]; linarith)
    (by
      rintro v ⟨k, _, rfl⟩ hv
      rw [hs, hst]
      unfold upper at hv
      rw [if_pos hh] at hv
      have h1 : (k : ℝ) < hi + 1 := by
        have := (div_lt_div_iff_of_pos_right (show (0 : ℝ) < 127 by norm_num)).mp hv
        exact this
      have h2 : k ≤ hi := by
        have : k < hi + 1 := by exact_mod_cast h1
        omega
      have : (k : ℝ) ≤ hi := by exact_mod_cast h2
      linarith)
  rw [hs, hst] at this
  exact this

example : valueIn 10 20 (15 / 127) .gain = 1 / 2 ∧ valueIn 10 20 (20 / 127) .gain = 1 := by
  unfold valueIn crossfadeIn lower upper
  norm_num [shape]

/-- Up to the last value, 127, the fade is complete one step early, at 126. -/
theorem value_fade_in_top (lo : Nat) (h : lo < 126) (c : Curve) :
    FadesIn sevenBit (fun v => valueIn lo 127 v c) ((lo : ℝ) / 127) (126 / 127) := by
  have hs : upper 127 - lower lo - 1 / 127 = (126 - (lo : ℝ)) / 127 := by unfold upper lower; norm_num; ring
  have hp : (lo : ℝ) < 126 := by exact_mod_cast h
  have hst : lower lo + (126 - (lo : ℝ)) / 127 = 126 / 127 := by unfold lower; ring
  have := crossfadeIn_fades sevenBit (lower lo) (upper 127) (upper 127 - lower lo) (1 / 127) c
    (by rw [hs]; exact div_pos (by linarith) (by norm_num))
    (by rw [hs, hst]; unfold upper; norm_num)
    (by
      rintro v ⟨k, _, rfl⟩ hv
      rw [hs, hst]
      unfold upper at hv
      norm_num at hv
      have h1 : (k : ℝ) < 127 := by linarith
      have h2 : k ≤ 126 := by
        have : k < 127 := by exact_mod_cast h1
        omega
      have : (k : ℝ) ≤ 126 := by exact_mod_cast h2
      linarith)
  rw [hs, hst] at this
  exact this

example : valueIn 26 127 (76 / 127) .gain = 1 / 2 := by
  unfold valueIn crossfadeIn lower upper
  norm_num [shape]

/-- **C41, velocity and controllers.** The fade-out is right for every value, also of high resolution. -/
theorem value_fade_out (lo hi : Nat) (h : lo < hi) (hh : hi ≤ 126) (c : Curve) :
    FadesOut Set.univ (fun v => valueOut lo hi v c) ((lo : ℝ) / 127) ((hi : ℝ) / 127) := by
  have hs := upper_sub (lo := lo) hh
  have hp : (lo : ℝ) < hi := by exact_mod_cast h
  have hst : lower lo + ((hi : ℝ) - lo) / 127 = (hi : ℝ) / 127 := by unfold lower; ring
  have := crossfadeOut_fades (lower lo) (upper hi - lower lo) (1 / 127) c
    (by rw [hs]; exact div_pos (by linarith) (by norm_num))
  rw [hs, hst] at this
  exact this

example : valueOut 10 20 (31 / 254) .gain = 9 / 20 := by
  unfold valueOut crossfadeOut lower upper
  norm_num [shape]

/-- For controller or velocity values between two of the 128 steps the fade-in overshoots: with `xfin_locc=10 xfin_hicc=11` and
the value 11.9/127 the gain is 1.9, and it falls back to 1 at 12/127. -/
theorem value_fade_in_violated :
    valueIn 10 11 (119 / 1270) .gain = 19 / 10 ∧ valueIn 10 11 (12 / 127) .gain = 1 ∧ (119 / 1270 : ℝ) < 12 / 127 := by
  refine ⟨?_, ?_, by norm_num⟩ <;> (unfold valueIn crossfadeIn lower upper; norm_num [shape])

/-- A fade-out with equal bounds never fades: keys far above are at full gain. -/
theorem key_fade_out_violated : keyOut 60 60 100 .gain = 1 := by
  unfold keyOut crossfadeOut
  rw [keyLength_le (by norm_num) (by norm_num)]
  norm_num

/-- **C41, complement.** Two regions crossfading over the same key range keep the sum of the gains, or of the powers, at 1. -/
theorem key_crossfade_complementary (lo hi : Nat) (h : lo < hi) (hh : hi < 256) (key : Int) (h1 : (lo : Int) ≤ key) (h2 : key ≤ hi) :
    keyIn lo hi key .gain + keyOut lo hi key .gain = 1 ∧ keyIn lo hi key .power ^ 2 + keyOut lo hi key .power ^ 2 = 1 := by
  have hl := keyLength_le h.le hh
  have hp : (lo : ℝ) < hi := by exact_mod_cast h
  have k1 : (lo : ℝ) ≤ key := by exact_mod_cast h1
  have k2 : (key : ℝ) ≤ hi := by exact_mod_cast h2
  have hpos : (0 : ℝ) < (hi : ℝ) - lo - 0 := by linarith
  have hx0 : 0 ≤ ((key : ℝ) - lo) / ((hi : ℝ) - lo - 0) := div_nonneg (by linarith) hpos.le
  have hx1 : ((key : ℝ) - lo) / ((hi : ℝ) - lo - 0) ≤ 1 := by rw [div_le_one hpos]; linarith
  have vin : ∀ c, keyIn lo hi key c = shape c (((key : ℝ) - lo) / ((hi : ℝ) - lo - 0)) := by
    intro c
    unfold keyIn crossfadeIn
    rw [hl, if_neg (by linarith), if_neg (by linarith)]
    split
    · rfl
    · have : (key : ℝ) = hi := by linarith
      rw [this, sub_zero, div_self (show (hi : ℝ) - lo ≠ 0 by linarith), shape_one]
  have vout : ∀ c, keyOut lo hi key c = shape c (1 - ((key : ℝ) - lo) / ((hi : ℝ) - lo - 0)) := by
    intro c
    unfold keyOut crossfadeOut
    rw [hl, if_neg (by linarith)]
    split
    · rw [if_neg (by linarith)]
    · have : (key : ℝ) = lo := by linarith
      rw [this, sub_self, zero_div, sub_zero, shape_one]
  rw [vin, vout, vin, vout]
  constructor
  · simp [shape]
  · simp only [shape]
    rw [Real.sq_sqrt hx0, Real.sq_sqrt (by linarith)]; ring

example : keyIn 60 70 64 .gain + keyOut 60 70 64 .gain = 1 :=
  (key_crossfade_complementary 60 70 (by norm_num) (by norm_num) 64 (by norm_num) (by norm_num)).1

end Verif.Crossfade
