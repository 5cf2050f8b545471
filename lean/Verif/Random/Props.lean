import Verif.Random.Model
import Verif.MidiValue.Props
import Mathlib.Data.Finset.Card
import Mathlib.Tactic.Ring
import Mathlib.Tactic.Linarith
import Mathlib.Tactic.NormNum
import Mathlib.Tactic.LinearCombination

/-!
C142: random variations.
-/
namespace Verif.Random

open Verif.Float32

/-! ### The generator -/

/-- 1 + a + a² + … with `n` terms. -/
def geo : Nat → Nat
  | 0 => 0
  | n + 1 => 1664525 * geo n + 1

lemma geo_pow (n : Nat) : 1664525 ^ n = 1664524 * geo n + 1 := by
  induction n with
  | zero => rfl
  | succ n ih => rw [pow_succ, ih, geo]; ring

lemma geo_add (m n : Nat) : geo (m + n) = geo m * 1664525 ^ n + geo n := by
  induction n with
  | zero => simp [geo]
  | succ n ih => rw [← add_assoc, geo, ih, geo, pow_succ]; ring

lemma geo_odd (n : Nat) : geo n % 2 = n % 2 := by
  induction n with
  | zero => rfl
  | succ n ih => rw [geo]; omega

lemma odd_coprime {n : Nat} (h : Odd n) : Nat.Coprime 2 n := by
  obtain ⟨k, rfl⟩ := h
  rw [Nat.Coprime, Nat.gcd_rec, Nat.mul_add_mod]; rfl

/-- The powers of two that divide the sum are those that divide the number of terms. -/
lemma geo_dvd (k : Nat) : ∀ n, 2 ^ k ∣ geo n ↔ 2 ^ k ∣ n := by
  induction k with
  | zero => simp
  | succ k ih =>
    intro n
    rcases Nat.even_or_odd' n with ⟨m, rfl | rfl⟩
    · have e : geo (2 * m) = 2 * (geo m * (832262 * geo m + 1)) := by
        rw [two_mul, geo_add, geo_pow]; ring
      rw [e, pow_succ, mul_comm (2 ^ k) 2, Nat.mul_dvd_mul_iff_left (by norm_num), Nat.mul_dvd_mul_iff_left (by norm_num), ← ih m]
      have hc : Nat.Coprime (2 ^ k) (832262 * geo m + 1) := by
        apply Nat.Coprime.pow_left
        exact odd_coprime ⟨416131 * geo m, by ring⟩
      exact ⟨fun h => hc.dvd_of_dvd_mul_right h, fun h => Dvd.dvd.mul_right h _⟩
    · have h1 : geo (2 * m + 1) % 2 = 1 := by rw [geo_odd]; omega
      have h2 : ∀ x : Nat, x % 2 = 1 → ¬ 2 ^ (k + 1) ∣ x := by
        intro x hx hd
        have : 2 ∣ x := dvd_trans (Dvd.intro_left (2 ^ k) (pow_succ 2 k).symm) hd
        omega
      exact ⟨fun h => absurd h (h2 _ h1), fun h => absurd h (h2 _ (by omega))⟩

lemma nth_closed (s n : Nat) : nth s n % 2 ^ 32 = (1664525 ^ (n + 1) * s + 1013904223 * geo (n + 1)) % 2 ^ 32 := by
  induction n with
  | zero => simp [nth, next, geo]; ring_nf
  | succ n ih =>
    have : nth s (n + 1) % 2 ^ 32 = (nth s n % 2 ^ 32 * 1664525 + 1013904223) % 2 ^ 32 := by
      simp only [nth, next, Nat.mod_mod]
      omega
    have e : 1664525 ^ (n + 1 + 1) * s + 1013904223 * geo (n + 1 + 1)
        = (1664525 ^ (n + 1) * s + 1013904223 * geo (n + 1)) * 1664525 + 1013904223 := by
      rw [geo, pow_succ _ (n + 1)]; ring
    rw [this, ih, e, Nat.add_mod, Nat.mod_mul_mod, ← Nat.add_mod]

lemma nth_lt (s n : Nat) : nth s n < 2 ^ 32 := by
  cases n <;> exact Nat.mod_lt _ (by norm_num)

lemma nth_add (s i d : Nat) : nth s (i + d + 1) = nth (nth s i) d := by
  induction d with
  | zero => rfl
  | succ d ih => rw [← add_assoc, nth, ih, nth]

/-- A number comes back after a multiple of 2^32 draws only. -/
lemma returns {x d : Nat} (hx : x < 2 ^ 32) (h : nth x d = x) : 2 ^ 32 ∣ d + 1 := by
  have h1 := nth_closed x d
  rw [h, geo_pow] at h1
  have h2 : (1664524 * geo (d + 1) + 1) * x + 1013904223 * geo (d + 1)
      = x + geo (d + 1) * (1664524 * x + 1013904223) := by ring
  rw [h2] at h1
  have h3 : 2 ^ 32 ∣ geo (d + 1) * (1664524 * x + 1013904223) := by
    generalize geo (d + 1) * (1664524 * x + 1013904223) = y at h1
    omega
  have hc : Nat.Coprime (2 ^ 32) (1664524 * x + 1013904223) := by
    apply Nat.Coprime.pow_left
    exact odd_coprime ⟨832262 * x + 506952111, by ring⟩
  exact (geo_dvd 32 (d + 1)).mp (hc.dvd_of_dvd_mul_right h3)

lemma nth_inj {s i j : Nat} (hij : i < j) (hj : j < i + 2 ^ 32) : nth s i ≠ nth s j := by
  intro h
  obtain ⟨d, rfl⟩ := Nat.exists_eq_add_of_lt hij
  rw [nth_add] at h
  have := returns (nth_lt s i) h.symm
  have := Nat.le_of_dvd (by omega) this
  omega

/-- The draws from place `i` on, 2^32 of them, are the numbers below 2^32. -/
lemma image_draws (s i : Nat) : (Finset.range (2 ^ 32)).image (fun d => nth s (i + d)) = Finset.range (2 ^ 32) := by
  generalize hN : 2 ^ 32 = N
  apply Finset.eq_of_subset_of_card_le
  · intro y hy
    rw [Finset.mem_image] at hy
    obtain ⟨d, _, rfl⟩ := hy
    rw [Finset.mem_range, ← hN]
    exact nth_lt s _
  · rw [Finset.card_image_of_injOn]
    intro a ha b hb hab
    rw [Finset.mem_coe, Finset.mem_range] at ha hb
    rcases Nat.lt_trichotomy a b with h | h | h
    · exact absurd hab (nth_inj (by omega) (by omega))
    · exact h
    · exact absurd hab.symm (nth_inj (by omega) (by omega))

/-- **Among any 2^32 consecutive draws, every number comes exactly once.** -/
theorem every_number (s i x : Nat) (hx : x < 2 ^ 32) : ∃! d, d < 2 ^ 32 ∧ nth s (i + d) = x := by
  have h : x ∈ (Finset.range (2 ^ 32)).image (fun d => nth s (i + d)) := by
    rw [image_draws, Finset.mem_range]; exact hx
  rw [Finset.mem_image] at h
  obtain ⟨d, hd, e⟩ := h
  rw [Finset.mem_range] at hd
  refine ⟨d, ⟨hd, e⟩, fun d' h' => ?_⟩
  obtain ⟨h', e'⟩ := h'
  rcases Nat.lt_trichotomy d' d with h | h | h
  · exact absurd (e'.trans e.symm) (nth_inj (by omega) (by omega))
  · exact h
  · exact absurd (e.trans e'.symm) (nth_inj (by omega) (by omega))

/-- After 2^32 draws the generator begins again. -/
theorem begins_again (s n : Nat) : nth s (n + 2 ^ 32) = nth s n := by
  obtain ⟨d, ⟨hd, e⟩, -⟩ := every_number s (n + 1) (nth s n) (nth_lt s n)
  generalize hN : 2 ^ 32 = N at hd ⊢
  by_cases h : n + 1 + d = n + N
  · rw [← h]; exact e
  · exact absurd e.symm (nth_inj (by omega) (by omega))

example : nth 0 0 = 1013904223 ∧ nth 0 1 = 1196435762 ∧ nth 0 2 = 3519870697 := by decide +kernel

/-! ### Values between two settings -/

lemma isFloat_two32 : IsFloat ((2 : ℚ) ^ 32) := by
  have := isFloat_zpow (e := 32) (by norm_num)
  exact_mod_cast this

lemma fl_max : fl ((2 ^ 32 - 1 : Nat) : ℚ) = 2 ^ 32 := by
  apply le_antisymm
  · exact fl_le_of_le isFloat_two32 (by norm_num)
  · have h := fl_error ((2 ^ 32 - 1 : Nat) : ℚ)
    have hb : binExp ((2 ^ 32 - 1 : Nat) : ℚ) = 31 := by
      unfold binExp
      rw [abs_of_nonneg (by norm_num), log_unique (e := 31) (by norm_num) (by norm_num)]; rfl
    have hn : (2 : ℚ) ^ 32 = ((2 ^ 24 : ℤ) : ℚ) * ulp ((2 ^ 32 - 1 : Nat) : ℚ) := by
      unfold ulp; rw [hb]; norm_num
    rw [hn]
    unfold fl
    apply mul_le_mul_of_nonneg_right _ (ulp_pos _).le
    have hu : ulp ((2 ^ 32 - 1 : Nat) : ℚ) = 256 := by unfold ulp; rw [hb]; norm_num
    rw [hu]
    have : roundEven (((2 ^ 32 - 1 : Nat) : ℚ) / 256) = 2 ^ 24 := by decide +kernel
    rw [this]

/-- A number that is not very small can be divided by 2^32 without rounding. -/
lemma isFloat_div {b : ℚ} (hb : IsFloat b) (h : 2 ^ (-90 : ℤ) ≤ |b|) : IsFloat (b / 2 ^ 32) := by
  obtain ⟨m, e, hm, he, rfl⟩ := hb
  refine ⟨m, e - 32, hm, ?_, ?_⟩
  · by_contra hc
    have h1 : (2 : ℚ) ^ e ≤ 2 ^ (-118 : ℤ) := zpow_mono (by omega)
    have h2 : |(m : ℚ)| < 2 ^ 24 := by exact_mod_cast hm
    rw [abs_mul, abs_of_pos (show (0 : ℚ) < 2 ^ e by positivity)] at h
    have h3 : |(m : ℚ)| * 2 ^ e ≤ 2 ^ 24 * 2 ^ (-118 : ℤ) := mul_le_mul h2.le h1 (by positivity) (by norm_num)
    have h4 : (2 : ℚ) ^ 24 * 2 ^ (-118 : ℤ) < 2 ^ (-90 : ℤ) := by norm_num
    linarith
  · rw [zpow_sub₀ (by norm_num)]; norm_num; ring

/-- The part of the interval for the number `g`: a number from 0 to 1. -/
def part (g : Nat) : ℚ := fl g / 2 ^ 32

lemma part_bounds {g : Nat} (hg : g < 2 ^ 32) : 0 ≤ part g ∧ part g ≤ 1 := by
  have h1 : (g : ℚ) ≤ 2 ^ 32 := by exact_mod_cast hg.le
  constructor
  · exact div_nonneg (fl_nonneg (Nat.cast_nonneg _)) (by norm_num)
  · exact div_le_one_of_le₀ (fl_le_of_le isFloat_two32 h1) (by norm_num)

lemma part_near {g : Nat} (hg : g < 2 ^ 32) : |part g - (g : ℚ) / 2 ^ 32| ≤ 1 / 2 ^ 24 := by
  have h : |fl (g : ℚ) - g| ≤ |(g : ℚ)| / 2 ^ 24 := by
    apply MidiValue.fl_relative
    rcases Nat.eq_zero_or_pos g with h | h
    · left; exact_mod_cast h
    · right
      rw [abs_of_nonneg (Nat.cast_nonneg _)]
      have : (1 : ℚ) ≤ g := by exact_mod_cast h
      exact le_trans (by norm_num) this
  have h1 : (g : ℚ) ≤ 2 ^ 32 := by exact_mod_cast hg.le
  rw [abs_of_nonneg (show (0 : ℚ) ≤ (g : ℚ) from Nat.cast_nonneg g)] at h
  rw [part, ← sub_div, abs_div, abs_of_pos (show (0 : ℚ) < 2 ^ 32 by norm_num), div_le_iff₀ (by norm_num)]
  calc |fl (g : ℚ) - g| ≤ (g : ℚ) / 2 ^ 24 := h
    _ ≤ 2 ^ 32 / 2 ^ 24 := by gcongr
    _ = 1 / 2 ^ 24 * 2 ^ 32 := by ring

/-- What the distribution computes when the width `b - a` is a `float` that is not very small. -/
lemma real_eq {a b : ℚ} (hk : IsFloat (b - a)) (hs : b - a = 0 ∨ 2 ^ (-90 : ℤ) ≤ |b - a|) (g : Nat) :
    real a b g = fl (a + fl ((b - a) * part g)) := by
  have hd : IsFloat ((b - a) / 2 ^ 32) := by
    rcases hs with h | h
    · rw [h, zero_div]; exact ⟨0, 0, by norm_num, by norm_num, by simp⟩
    · exact isFloat_div hk h
  unfold real part
  rw [fl_of_isFloat hk, fl_max, fl_of_isFloat hd, sub_zero]
  congr 3
  ring

/-- **A random value never leaves its interval.** For two bounds in either order, whose difference is exact: this holds for 0 and any
setting (`amp_random`, `pitch_random`, `delay_random`, `fil_random`, controller 135), for a number and its opposite (controller
136, `*noise`), and for the phase of an oscillator (below). -/
theorem random_within {a b : ℚ} (ha : IsFloat a) (hb : IsFloat b) (hk : IsFloat (b - a))
    (hs : b - a = 0 ∨ 2 ^ (-90 : ℤ) ≤ |b - a|) {g : Nat} (hg : g < 2 ^ 32) :
    min a b ≤ real a b g ∧ real a b g ≤ max a b := by
  rw [real_eq hk hs]
  obtain ⟨p0, p1⟩ := part_bounds hg
  rcases le_total a b with h | h
  · rw [min_eq_left h, max_eq_right h]
    have h0 : 0 ≤ b - a := by linarith
    constructor
    · apply le_fl_of_le ha
      linarith [fl_nonneg (mul_nonneg h0 p0)]
    · apply fl_le_of_le hb
      have := fl_le_of_le hk (show (b - a) * part g ≤ b - a by nlinarith)
      linarith
  · rw [min_eq_right h, max_eq_left h]
    have h0 : b - a ≤ 0 := by linarith
    constructor
    · apply le_fl_of_le hb
      have := le_fl_of_le hk (show b - a ≤ (b - a) * part g by nlinarith)
      linarith
    · apply fl_le_of_le ha
      have := fl_le_of_le (x := (b - a) * part g) (g := 0) ⟨0, 0, by norm_num, by norm_num, by simp⟩ (by nlinarith)
      linarith

/-- The value for 0 and a setting, as a part of the setting, is the number drawn as a part of 2^32, to 23 bits. -/
lemma real_near {b : ℚ} (hb : IsFloat b) (hs : 2 ^ (-90 : ℤ) ≤ |b|) {g : Nat} (hg : g < 2 ^ 32) :
    |real 0 b g / b - (g : ℚ) / 2 ^ 32| ≤ 1 / 2 ^ 23 := by
  have hpos : 0 < |b| := lt_of_lt_of_le (by positivity) hs
  have hb0 : b ≠ 0 := abs_pos.mp hpos
  have e : real 0 b g = fl (b * part g) := by
    rw [real_eq (by simpa using hb) (by simpa using Or.inr hs), sub_zero, zero_add, fl_of_isFloat (fl_isFloat _)]
  obtain ⟨p0, p1⟩ := part_bounds hg
  have hr : |fl (b * part g) - b * part g| ≤ |b * part g| / 2 ^ 24 := by
    apply MidiValue.fl_relative
    rcases Nat.eq_zero_or_pos g with h | h
    · left; subst h; simp [part, fl_zero]
    · right
      have h1 : (1 : ℚ) ≤ fl g := le_fl_of_le ⟨1, 0, by norm_num, by norm_num, by simp⟩ (by exact_mod_cast h)
      have h2 : 1 / 2 ^ 32 ≤ part g := div_le_div_of_nonneg_right h1 (by norm_num)
      rw [abs_mul, abs_of_nonneg p0]
      calc (2 : ℚ) ^ (-126 : ℤ) ≤ 2 ^ (-90 : ℤ) * (1 / 2 ^ 32) := by norm_num
        _ ≤ |b| * part g := mul_le_mul hs h2 (by norm_num) (abs_nonneg _)
  have h1 : |real 0 b g / b - part g| ≤ 1 / 2 ^ 24 := by
    rw [e]
    have : fl (b * part g) / b - part g = (fl (b * part g) - b * part g) / b := by field_simp
    rw [this, abs_div, div_le_iff₀ hpos]
    calc |fl (b * part g) - b * part g| ≤ |b * part g| / 2 ^ 24 := hr
      _ = |b| * part g / 2 ^ 24 := by rw [abs_mul, abs_of_nonneg p0]
      _ ≤ |b| * 1 / 2 ^ 24 := by gcongr
      _ = 1 / 2 ^ 24 * |b| := by ring
  have h2 := part_near hg
  rw [abs_le] at *
  constructor <;> linarith [h1.1, h1.2, h2.1, h2.2]

/-- Counting among 2^32 consecutive draws is counting among the numbers below 2^32. -/
lemma card_draws (s i : Nat) (p : Nat → Prop) [DecidablePred p] :
    ((Finset.range (2 ^ 32)).filter (fun d => p (nth s (i + d)))).card = ((Finset.range (2 ^ 32)).filter p).card := by
  conv_rhs => rw [← image_draws s i, Finset.filter_image]
  rw [Finset.card_image_of_injOn]
  intro a ha b hb hab
  rw [Finset.mem_coe, Finset.mem_filter, Finset.mem_range] at ha hb
  rcases Nat.lt_trichotomy a b with h | h | h
  · exact absurd hab (nth_inj (by omega) (by omega))
  · exact h
  · exact absurd hab.symm (nth_inj (by omega) (by omega))

/-- **The whole interval is used, evenly.** Of any 2^32 consecutive draws, those whose value is at most the part `t` of the setting are the
part `t` of all, to 22 bits. -/
theorem random_share {b : ℚ} (hb : IsFloat b) (hs : 2 ^ (-90 : ℤ) ≤ |b|) (s i : Nat) {t : ℚ} (h0 : 0 ≤ t) (h1 : t ≤ 1) :
    |((((Finset.range (2 ^ 32)).filter (fun d => real 0 b (nth s (i + d)) / b ≤ t)).card : Nat) : ℚ) / 2 ^ 32 - t| ≤ 1 / 2 ^ 22 := by
  rw [card_draws s i (fun g => real 0 b g / b ≤ t)]
  have hN : ((2 ^ 32 : Nat) : ℚ) = 2 ^ 32 := by norm_num
  -- not too many
  have hu : ((Finset.range (2 ^ 32)).filter (fun g => real 0 b g / b ≤ t)).card ≤ ⌊(t + 1 / 2 ^ 23) * 2 ^ 32⌋₊ + 1 := by
    rw [← Finset.card_range (⌊(t + 1 / 2 ^ 23) * 2 ^ 32⌋₊ + 1)]
    apply Finset.card_le_card
    intro g hg
    rw [Finset.mem_filter, Finset.mem_range] at hg
    rw [Finset.mem_range, Nat.lt_succ_iff]
    apply Nat.le_floor
    have := (abs_le.mp (real_near hb hs hg.1)).1
    have h2 : (g : ℚ) / 2 ^ 32 ≤ t + 1 / 2 ^ 23 := by linarith [hg.2]
    rwa [div_le_iff₀ (by norm_num)] at h2
  -- not too few
  have hl : min (2 ^ 32) (⌊(t - 1 / 2 ^ 23) * 2 ^ 32⌋ + 1).toNat ≤ ((Finset.range (2 ^ 32)).filter (fun g => real 0 b g / b ≤ t)).card := by
    rw [← Finset.card_range (min (2 ^ 32) (⌊(t - 1 / 2 ^ 23) * 2 ^ 32⌋ + 1).toNat)]
    apply Finset.card_le_card
    intro g hg
    rw [Finset.mem_range, lt_min_iff] at hg
    rw [Finset.mem_filter, Finset.mem_range]
    refine ⟨hg.1, ?_⟩
    have := (abs_le.mp (real_near hb hs hg.1)).2
    have h3 : (g : ℤ) ≤ ⌊(t - 1 / 2 ^ 23) * 2 ^ 32⌋ := by have := hg.2; omega
    have h4 : (g : ℚ) ≤ (t - 1 / 2 ^ 23) * 2 ^ 32 := by exact_mod_cast Int.le_floor.mp h3
    have h5 : (g : ℚ) / 2 ^ 32 ≤ t - 1 / 2 ^ 23 := by rwa [div_le_iff₀ (by norm_num)]
    linarith
  generalize ((Finset.range (2 ^ 32)).filter (fun g => real 0 b g / b ≤ t)).card = c at hu hl
  have hu' : (c : ℚ) ≤ (t + 1 / 2 ^ 23) * 2 ^ 32 + 1 := by
    have h6 : (c : ℚ) ≤ (⌊(t + 1 / 2 ^ 23) * 2 ^ 32⌋₊ : ℚ) + 1 := by exact_mod_cast hu
    have := Nat.floor_le (show 0 ≤ (t + 1 / 2 ^ 23) * 2 ^ 32 by positivity)
    linarith
  have hl' : (t - 1 / 2 ^ 23) * 2 ^ 32 ≤ (c : ℚ) := by
    rcases min_le_iff.mp hl with h | h
    · have : (2 : ℚ) ^ 32 ≤ c := by exact_mod_cast h
      nlinarith
    · have h7 : ⌊(t - 1 / 2 ^ 23) * 2 ^ 32⌋ + 1 ≤ (c : ℤ) := by omega
      have h8 : ((⌊(t - 1 / 2 ^ 23) * 2 ^ 32⌋ : ℤ) : ℚ) + 1 ≤ c := by exact_mod_cast h7
      linarith [Int.lt_floor_add_one ((t - 1 / 2 ^ 23) * 2 ^ 32)]
  rw [abs_le]
  constructor
  · have : t - 1 / 2 ^ 23 ≤ (c : ℚ) / 2 ^ 32 := by rwa [le_div_iff₀ (by norm_num)]
    linarith [show (1 : ℚ) / 2 ^ 23 ≤ 1 / 2 ^ 22 by norm_num]
  · have : (c : ℚ) / 2 ^ 32 ≤ t + 1 / 2 ^ 23 + 1 / 2 ^ 32 := by
      rw [div_le_iff₀ (by norm_num)]; linarith
    linarith [show (1 : ℚ) / 2 ^ 23 + 1 / 2 ^ 32 ≤ 1 / 2 ^ 22 by norm_num]

/-- `amp_random=6` and a number in the middle. -/
example (g : Nat) (hg : (g : ℚ) = 2 ^ 31) : IsFloat 6 ∧ (2 : ℚ) ^ (-90 : ℤ) ≤ |6| ∧ real 0 6 g = 3 := by
  have h6 : IsFloat 6 := ⟨6, 0, by norm_num, by norm_num, by norm_num⟩
  refine ⟨h6, by norm_num, ?_⟩
  have hp : part g = 1 / 2 := by
    unfold part
    rw [hg, fl_of_isFloat ⟨1, 31, by norm_num, by norm_num, by norm_num⟩]; norm_num
  rw [real_eq (by simpa using h6) (Or.inr (by norm_num)), hp, sub_zero, zero_add]
  have h3 : fl 3 = 3 := fl_of_isFloat ⟨3, 0, by norm_num, by norm_num, by norm_num⟩
  norm_num [h3]

/-- The phase of an oscillator without a phase (Region.cpp:1797) is strictly between 0 and 1. -/
theorem random_phase {g : Nat} (hg : g < 2 ^ 32) :
    0 < real (fl (1 / 10000)) (fl (9999 / 10000)) g ∧ real (fl (1 / 10000)) (fl (9999 / 10000)) g < 1 := by
  have ea : fl (1 / 10000) = 13743895 / 137438953472 := by decide +kernel
  have eb : fl (9999 / 10000) = 8387769 / 8388608 := by decide +kernel
  have ek : fl (8387769 / 8388608 - 13743895 / 137438953472) = 4193465 / 4194304 := by decide +kernel
  have e : real (fl (1 / 10000)) (fl (9999 / 10000)) g = fl (13743895 / 137438953472 + fl (4193465 / 4194304 * part g)) := by
    unfold real part
    rw [ea, eb, ek, fl_max, sub_zero, fl_of_isFloat (x := 4193465 / 4194304 / 2 ^ 32) ⟨4193465, -54, by norm_num, by norm_num, by norm_num⟩]
    congr 3; ring
  obtain ⟨p0, p1⟩ := part_bounds hg
  have f0 : 0 ≤ fl (4193465 / 4194304 * part g) := fl_nonneg (by positivity)
  have f1 : fl (4193465 / 4194304 * part g) ≤ 4193465 / 4194304 :=
    fl_le_of_le ⟨4193465, -22, by norm_num, by norm_num, by norm_num⟩ (by nlinarith)
  rw [e]
  constructor
  · have := le_fl_of_le (x := 13743895 / 137438953472 + fl (4193465 / 4194304 * part g)) (g := 13743895 / 137438953472)
      ⟨13743895, -37, by norm_num, by norm_num, by norm_num⟩ (by linarith)
    exact lt_of_lt_of_le (by norm_num) this
  · have := fl_le_of_le (x := 13743895 / 137438953472 + fl (4193465 / 4194304 * part g)) (g := 8388607 / 8388608)
      ⟨8388607, -23, by norm_num, by norm_num, by norm_num⟩ (by norm_num at f1 ⊢; linarith)
    exact lt_of_le_of_lt this (by norm_num)

/-! ### Noise -/

/-- **`*noise` stays within full scale.** -/
theorem noise_within {g : Nat} (hg : g < 2 ^ 32) : |noise g| ≤ 1 := by
  have h1 : IsFloat 1 := ⟨1, 0, by norm_num, by norm_num, by simp⟩
  have := random_within (a := -1) (b := 1) h1.neg h1 ⟨2, 0, by norm_num, by norm_num, by norm_num⟩ (Or.inr (by norm_num)) hg
  rw [min_eq_left (by norm_num), max_eq_right (by norm_num)] at this
  exact abs_le.mpr this

lemma drawn_eq (s n : Nat) : drawn s n = (List.range n).map (nth s) := by
  induction n generalizing s with
  | zero => rfl
  | succ n ih =>
    have h : nth s ∘ Nat.succ = nth (next s) := by
      funext i
      have e := nth_add s 0 i
      rw [Nat.zero_add, nth] at e
      rw [Function.comp, Nat.succ_eq_add_one, e]
    rw [drawn, ih, List.range_succ_eq_map, List.map_cons, List.map_map, h, nth]

/-- **Noise does not repeat itself**, nor does one channel repeat the other (the right channel is drawn after the left,
Voice.cpp:1506-1507), before 2^32 numbers are drawn. -/
theorem noise_fresh (s n : Nat) (hn : n ≤ 2 ^ 32) : (drawn s n).Nodup := by
  rw [drawn_eq]
  apply List.Nodup.map_on _ List.nodup_range
  intro a ha b hb hab
  rw [List.mem_range] at ha hb
  rcases Nat.lt_trichotomy a b with h | h | h
  · exact absurd hab (nth_inj (by omega) (by omega))
  · exact h
  · exact absurd hab.symm (nth_inj (by omega) (by omega))

lemma term_bound (x : Nat) : |fl (fl (signed (next x)) * (1 / 2 ^ 31))| ≤ 1 := by
  have hx : next x < 2 ^ 32 := Nat.mod_lt _ (by norm_num)
  have hb : -(2 ^ 31 : ℤ) ≤ signed (next x) ∧ signed (next x) ≤ 2 ^ 31 := by
    unfold signed; split <;> omega
  have hf : IsFloat ((2 : ℚ) ^ 31) := by
    have := isFloat_zpow (e := 31) (by norm_num)
    exact_mod_cast this
  have h1 : fl (signed (next x)) ≤ 2 ^ 31 := fl_le_of_le hf (by exact_mod_cast hb.2)
  have h2 : -(2 ^ 31) ≤ fl (signed (next x)) := le_fl_of_le hf.neg (by exact_mod_cast hb.1)
  have one : IsFloat 1 := ⟨1, 0, by norm_num, by norm_num, by simp⟩
  rw [abs_le]
  constructor
  · apply le_fl_of_le one.neg; linarith
  · apply fl_le_of_le one; linarith

lemma sum_bound (l : List Nat) : ∀ (k : Nat) (sum : ℚ), k + l.length < 2 ^ 24 → |sum| ≤ k → |(sumUp sum l).1| ≤ k + l.length := by
  induction l with
  | nil => intro k sum _ h; simpa [sumUp] using h
  | cons x l ih =>
    intro k sum hk h
    simp only [sumUp]
    have ht := term_bound x
    rw [List.length_cons] at hk ⊢
    have hf : IsFloat ((k + 1 : Nat) : ℚ) := by
      have := isFloat_int (n := ((k + 1 : Nat) : ℤ)) (by rw [abs_of_nonneg (by omega)]; omega)
      exact_mod_cast this
    have : |fl (sum + fl (fl (signed (next x)) * (1 / 2 ^ 31)))| ≤ ((k + 1 : Nat) : ℚ) := by
      rw [abs_le] at h ht ⊢
      constructor
      · apply le_fl_of_le hf.neg; push_cast; linarith [h.1, ht.1]
      · apply fl_le_of_le hf; push_cast; linarith [h.2, ht.2]
    have := ih (k + 1) _ (by omega) this
    push_cast at this ⊢
    linarith

lemma sumUp_length (l : List Nat) : ∀ sum, (sumUp sum l).2.length = l.length := by
  induction l with
  | nil => intro _; rfl
  | cons x l ih => intro sum; simp [sumUp, ih]

lemma frames_bound (n : Nat) : ∀ (x : Gauss), x.seeds.length = 4 → x.mean = 0 → IsFloat x.gain → 0 ≤ x.gain →
    ∀ y ∈ (x.frames n).1, |y| ≤ 4 * x.gain := by
  induction n with
  | zero => intro x _ _ _ _ y hy; simp [Gauss.frames] at hy
  | succ n ih =>
    intro x hl hm hg h0 y hy
    simp only [Gauss.frames, List.mem_cons] at hy
    rcases hy with rfl | hy
    · have hs := sum_bound x.seeds 0 0 (by omega) (by simp)
      rw [hl] at hs
      have h4 : IsFloat (4 * x.gain) := by
        obtain ⟨m, e, a, b, c⟩ := hg
        exact ⟨m, e + 2, a, by omega, by rw [c, zpow_add₀ (by norm_num)]; norm_num; ring⟩
      simp only [Gauss.tick, hm, zero_add]
      rw [fl_of_isFloat (fl_isFloat _)]
      rw [abs_le] at hs ⊢
      norm_num at hs
      constructor
      · apply le_fl_of_le h4.neg; nlinarith [hs.1, hs.2]
      · apply fl_le_of_le h4; nlinarith [hs.1, hs.2]
    · exact ih x.tick.2 (by simp [Gauss.tick, sumUp_length, hl]) hm hg h0 y hy

/-- **`*gnoise` stays within 0.87**, for every voice and for ever. `gain` is the `float` made of 0.25 / √(4/3) = 0.216506…. -/
theorem gnoise_within {gain : ℚ} (hf : IsFloat gain) (h0 : 0 ≤ gain) (h1 : gain ≤ 0.21651) (voice n : Nat) :
    ∀ y ∈ ((voiceGauss gain voice).frames n).1, |y| ≤ 0.87 := by
  intro y hy
  have := frames_bound n (voiceGauss gain voice) rfl rfl hf h0 y hy
  have : |y| ≤ 4 * gain := this
  norm_num at h1 ⊢
  linarith

example : IsFloat (3632355 / 16777216) ∧ (3632355 / 16777216 : ℚ) ≤ 0.21651 ∧
    ((voiceGauss (3632355 / 16777216) 0).frames 2).1.length = 2 := by
  refine ⟨⟨3632355, -24, by norm_num, by norm_num, by norm_num⟩, by norm_num, rfl⟩

lemma frames_head (n : Nat) : ∀ x y : Gauss, x.seeds.head? = y.seeds.head? → (x.frames n).2.seeds.head? = (y.frames n).2.seeds.head? := by
  induction n with
  | zero => intro x y h; exact h
  | succ n ih =>
    intro x y h
    simp only [Gauss.frames]
    apply ih
    simp only [Gauss.tick]
    cases hx : x.seeds <;> cases hy : y.seeds <;> simp_all [sumUp]

/-- **The noises of two voices are not independent**: of the four numbers that a frame of `*gnoise` adds up, the first one of a voice is the
first one of the voice made before it, one frame later. -/
theorem gnoise_shared_violated (gain : ℚ) (voice n : Nat) :
    ((voiceGauss gain (voice + 1)).frames n).2.seeds.head? = ((voiceGauss gain voice).frames (n + 1)).2.seeds.head? := by
  simp only [Gauss.frames]
  apply frames_head
  simp only [Gauss.tick, voiceGauss, seeds, sumUp, List.head?_cons, nth]

end Verif.Random
