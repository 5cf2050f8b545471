import Verif.Stretch.Model
import Verif.Tuning.Props
import Mathlib.Algebra.Order.Floor.Ring
import Mathlib.Tactic.IntervalCases

/-!
C80: stretch tuning. The knob moves the pitch of every key along the three curves; higher keys are stretched at least as much as
lower ones, and the stretch stays within the curves.
-/
namespace Verif.Stretch

open Verif.Tuning (Val)

/-! ### The curves -/

def sorted (c : List Nat) : Bool := (c.zip c.tail).all fun p => decide (p.1 ≤ p.2)

theorem entry_mono_of (c : List Nat) (hc : sorted c = true) (hl : c.length = 128) :
    ∀ i j : Fin 128, i ≤ j → entry c i ≤ entry c j := by
  have step : ∀ k, k + 1 < 128 → c.getD k 0 ≤ c.getD (k + 1) 0 := by
    intro k hk
    have h1 : k < c.length := by omega
    have h2 : k + 1 < c.length := by omega
    have hm : (c[k], c[k + 1]) ∈ c.zip c.tail := by
      have : k < (c.zip c.tail).length := by simp; omega
      have e : (c.zip c.tail)[k] = (c[k], c[k + 1]) := by simp
      rw [← e]; exact List.getElem_mem this
    have := List.all_eq_true.1 hc _ hm
    simp only [decide_eq_true_eq] at this
    rwa [List.getD_eq_getElem?_getD, List.getD_eq_getElem?_getD, List.getElem?_eq_getElem h1, List.getElem?_eq_getElem h2]
  have all : ∀ n k, k + n < 128 → c.getD k 0 ≤ c.getD (k + n) 0 := by
    intro n
    induction n with
    | zero => intro k _; exact le_rfl
    | succ n ih => intro k hk; exact (ih k (by omega)).trans (step (k + n) (by omega))
  intro i j hij
  have := all (j.val - i.val) i.val (by omega)
  rw [show i.val + (j.val - i.val) = j.val by have : i.val ≤ j.val := hij; omega] at this
  unfold entry
  have h : ((c.getD i.val 0 : ℕ) : ℝ) ≤ ((c.getD j.val 0 : ℕ) : ℝ) := by exact_mod_cast this
  linarith

theorem mono21 : ∀ i j : Fin 128, i ≤ j → entry railsback21 i ≤ entry railsback21 j := entry_mono_of _ (by decide +kernel) (by decide +kernel)
theorem mono41 : ∀ i j : Fin 128, i ≤ j → entry railsback41 i ≤ entry railsback41 j := entry_mono_of _ (by decide +kernel) (by decide +kernel)
theorem mono42 : ∀ i j : Fin 128, i ≤ j → entry railsback42 i ≤ entry railsback42 j := entry_mono_of _ (by decide +kernel) (by decide +kernel)

/-- The widest bounds of the curves. -/
theorem bounds_of (c : List Nat) (hm : ∀ i j : Fin 128, i ≤ j → entry c i ≤ entry c j) (h0 : 939286 ≤ c.getD 0 0)
    (h1 : c.getD 127 0 ≤ 1074656) (i : Fin 128) : 0.939286 ≤ entry c i ∧ entry c i ≤ 1.074656 := by
  have a := hm 0 i (Fin.zero_le _)
  have b := hm i ⟨127, by omega⟩ (by have := i.isLt; show i.val ≤ 127; omega)
  have a0 : (0.939286 : ℝ) ≤ entry c (0 : Fin 128) := by
    have : ((939286 : ℕ) : ℝ) ≤ ((c.getD 0 0 : ℕ) : ℝ) := by exact_mod_cast h0
    show (0.939286 : ℝ) ≤ ((c.getD 0 0 : ℕ) : ℝ) / 1000000
    generalize ((c.getD 0 0 : ℕ) : ℝ) = z at this ⊢
    norm_num at this ⊢; linarith
  have b0 : entry c (⟨127, by omega⟩ : Fin 128) ≤ (1.074656 : ℝ) := by
    have : ((c.getD 127 0 : ℕ) : ℝ) ≤ ((1074656 : ℕ) : ℝ) := by exact_mod_cast h1
    show ((c.getD 127 0 : ℕ) : ℝ) / 1000000 ≤ (1.074656 : ℝ)
    generalize ((c.getD 127 0 : ℕ) : ℝ) = z at this ⊢
    norm_num at this ⊢; linarith
  exact ⟨a0.trans a, b.trans b0⟩

theorem b21 (i : Fin 128) : 0.939286 ≤ entry railsback21 i ∧ entry railsback21 i ≤ 1.074656 :=
  bounds_of railsback21 mono21 (by decide +kernel) (by decide +kernel) i
theorem b41 (i : Fin 128) : 0.939286 ≤ entry railsback41 i ∧ entry railsback41 i ≤ 1.074656 :=
  bounds_of railsback41 mono41 (by decide +kernel) (by decide +kernel) i
theorem b42 (i : Fin 128) : 0.939286 ≤ entry railsback42 i ∧ entry railsback42 i ≤ 1.074656 :=
  bounds_of railsback42 mono42 (by decide +kernel) (by decide +kernel) i

/-! ### The knob -/

/-- The straight line between two points. -/
noncomputable def line (x0 y0 x1 y1 x : ℝ) : ℝ := y0 + (x - x0) / (x1 - x0) * (y1 - y0)

/-- For every position of the knob the curve is on the straight line between the curves of the positions 0 (no stretch), 0.25, 0.5
and 1 around it, both ends included, so that there are no jumps; outside of 0 to 1 it is that of the end. -/
theorem knob (x : ℝ) (i : Fin 128) :
    (x ≤ 0 → railsback x i = 1) ∧
    (0 ≤ x → x ≤ 0.25 → railsback x i = line 0 1 0.25 (entry railsback21 i) x) ∧
    (0.25 ≤ x → x ≤ 0.5 → railsback x i = line 0.25 (entry railsback21 i) 0.5 (entry railsback41 i) x) ∧
    (0.5 ≤ x → x ≤ 1 → railsback x i = line 0.5 (entry railsback41 i) 1 (entry railsback42 i) x) ∧
    (1 ≤ x → railsback x i = entry railsback42 i) := by
  have q25 : (0.25 : ℝ) = 1 / 4 := by norm_num
  have q5 : (0.5 : ℝ) = 1 / 2 := by norm_num
  rw [railsback]
  simp only [line, q25, q5, ge_iff_le]
  rcases lt_or_ge x (1 / 4) with h1 | h1
  · rw [if_neg (not_le.2 h1), if_pos (by norm_num)]
    refine ⟨fun h => ?_, fun h _ => ?_, fun h => by linarith, fun h => by linarith, fun h => by linarith⟩
    · rw [max_eq_left (by linarith)]; ring
    · rw [max_eq_right (by linarith)]; ring
  · rw [if_pos h1]
    rcases lt_or_ge x (1 / 2) with h2 | h2
    · rw [if_neg (not_le.2 h2), if_neg (by norm_num), if_pos rfl]
      refine ⟨fun h => by linarith, fun _ h => ?_, fun _ _ => by ring, fun h => by linarith, fun h => by linarith⟩
      have : x = 1 / 4 := le_antisymm h h1
      subst this; ring
    · rw [if_pos h2]
      rcases lt_or_ge x 1 with h3 | h3
      · rw [if_neg (not_le.2 h3), if_neg (by norm_num), if_neg (by norm_num), if_pos rfl]
        refine ⟨fun h => by linarith, fun _ h => by linarith, fun _ h => ?_, fun _ _ => by ring, fun h => by linarith⟩
        have : x = 1 / 2 := le_antisymm h h2
        subst this; ring
      · rw [if_pos h3, if_neg (by norm_num), if_neg (by norm_num), if_neg (by norm_num)]
        refine ⟨fun h => by linarith, fun _ h => by linarith, fun _ h => by linarith, fun _ h => ?_, fun _ => rfl⟩
        have : x = 1 := le_antisymm h h3
        subst this; ring

/-- The cases of the knob as mixtures of two lists of ratios. -/
theorem mixture (x : ℝ) : ∃ (mu : ℝ) (p q : Fin 128 → ℝ), 0 ≤ mu ∧ mu ≤ 1 ∧ (∀ i, railsback x i = mu * q i + (1 - mu) * p i) ∧
    (∀ i j, i ≤ j → p i ≤ p j) ∧ (∀ i j, i ≤ j → q i ≤ q j) ∧ (∀ i, 0.939286 ≤ p i ∧ p i ≤ 1.074656) ∧
    (∀ i, 0.939286 ≤ q i ∧ q i ≤ 1.074656) := by
  have one : ∀ i : Fin 128, (0.939286 : ℝ) ≤ 1 ∧ (1 : ℝ) ≤ 1.074656 := fun _ => by norm_num
  by_cases h0 : x ≤ 0
  · exact ⟨0, fun _ => 1, fun _ => 1, le_rfl, zero_le_one, fun i => by rw [(knob x i).1 h0]; ring, fun _ _ _ => le_rfl,
      fun _ _ _ => le_rfl, one, one⟩
  by_cases h1 : x ≤ 0.25
  · refine ⟨x / 0.25, fun _ => 1, fun i => entry railsback21 i, by norm_num at *; linarith, by norm_num at *; linarith, fun i => ?_,
      fun _ _ _ => le_rfl, mono21, one, b21⟩
    rw [(knob x i).2.1 (by linarith) h1, line]; norm_num; ring
  by_cases h2 : x ≤ 0.5
  · refine ⟨(x - 0.25) / 0.25, fun i => entry railsback21 i, fun i => entry railsback41 i, by norm_num at *; linarith,
      by norm_num at *; linarith, fun i => ?_, mono21, mono41, b21, b41⟩
    rw [(knob x i).2.2.1 (by linarith) h2, line]; norm_num; ring
  by_cases h3 : x ≤ 1
  · refine ⟨(x - 0.5) / 0.5, fun i => entry railsback41 i, fun i => entry railsback42 i, by norm_num at *; linarith,
      by norm_num at *; linarith, fun i => ?_, mono41, mono42, b41, b42⟩
    rw [(knob x i).2.2.2.1 (by linarith) h3, line]; norm_num; ring
  · exact ⟨1, fun i => entry railsback42 i, fun i => entry railsback42 i, zero_le_one, le_rfl,
      fun i => by rw [(knob x i).2.2.2.2 (by linarith)]; ring, mono42, mono42, b42, b42⟩

theorem railsback_mono (x : ℝ) (i j : Fin 128) (h : i ≤ j) : railsback x i ≤ railsback x j := by
  obtain ⟨mu, p, q, h0, h1, e, hp, hq, -⟩ := mixture x
  rw [e, e]
  have := mul_le_mul_of_nonneg_left (hq i j h) h0
  have := mul_le_mul_of_nonneg_left (hp i j h) (by linarith : 0 ≤ 1 - mu)
  linarith

theorem railsback_bounds (x : ℝ) (i : Fin 128) : 0.939286 ≤ railsback x i ∧ railsback x i ≤ 1.074656 := by
  obtain ⟨mu, p, q, h0, h1, e, -, -, hp, hq⟩ := mixture x
  rw [e]
  have a := hp i; have b := hq i
  have m : 0 ≤ 1 - mu := by linarith
  constructor <;> nlinarith

/-! ### Keys -/

theorem ratioAt_nonneg (t : Ratios) (x : ℝ) (h0 : 0 ≤ x) (h1 : x < 2147483648) :
    ratioAt t (.num x) = some (t (clampKey ⌊x⌋) * (1 - Int.fract x) + t (clampKey (⌊x⌋ + 1)) * Int.fract x) := by
  have hf : 0 ≤ ⌊x⌋ := Int.floor_nonneg.2 h0
  have hf2 : ⌊x⌋ < 2147483648 := Int.floor_lt.2 (by exact_mod_cast h1)
  have ht : toInt (.num x) = some ⌊x⌋ := by
    simp only [toInt, h0, if_true]
    rw [if_pos (by omega)]
  simp only [ratioAt, ht]
  have : clampKey (((clampKey ⌊x⌋).val : ℤ) + 1) = clampKey (⌊x⌋ + 1) := by
    apply Fin.ext; simp only [clampKey]; omega
  rw [this]
  rfl

/-- The factor for a whole key from 0 to 127 is the entry of that key; between two keys it is on the straight line between them. -/
theorem whole_keys (t : Ratios) (k : Fin 128) : ratioAt t (.num k) = some (t k) := by
  rw [ratioAt_nonneg t k (by positivity) (by
    have h : ((k.val : ℕ) : ℝ) < 128 := by exact_mod_cast k.isLt
    linarith)]
  have e : clampKey ⌊((k.val : ℕ) : ℝ)⌋ = k := by
    rw [Int.floor_natCast]
    apply Fin.ext; simp only [clampKey]; omega
  rw [e]
  simp

theorem between_keys (t : Ratios) (k : ℕ) (h : k + 1 < 128) (x : ℝ) (h1 : (k : ℝ) ≤ x) (h2 : x ≤ k + 1) :
    ratioAt t (.num x) = some (line k (t ⟨k, by omega⟩) (k + 1) (t ⟨k + 1, h⟩) x) := by
  have hk : ((k : ℕ) : ℝ) < 128 := by exact_mod_cast (by omega : k < 128)
  rcases h2.lt_or_eq with h2 | h2
  · rw [ratioAt_nonneg t x (by linarith [Nat.cast_nonneg (α := ℝ) k]) (by linarith)]
    have e : ⌊x⌋ = (k : ℤ) := Int.floor_eq_iff.2 ⟨by exact_mod_cast h1, by exact_mod_cast h2⟩
    have e1 : clampKey ⌊x⌋ = ⟨k, by omega⟩ := by rw [e]; apply Fin.ext; simp only [clampKey]; omega
    have e2 : clampKey (⌊x⌋ + 1) = ⟨k + 1, h⟩ := by rw [e]; apply Fin.ext; simp only [clampKey]; omega
    have e3 : Int.fract x = x - k := by rw [Int.fract, e]; simp
    rw [e1, e2, e3, line]
    congr 1
    rw [show (k : ℝ) + 1 - k = 1 by ring]; ring
  · have := whole_keys t ⟨k + 1, h⟩
    have e : x = (((⟨k + 1, h⟩ : Fin 128).val : ℕ) : ℝ) := by rw [h2]; push_cast; rfl
    rw [e, this, line]
    congr 1
    push_cast
    rw [show (k : ℝ) + 1 - k = 1 by ring]; ring

/-- For every position of the knob and every key from 0 on (whole or between two keys), the factor is defined and between 0.939 and
1.075, and higher keys have no smaller factor. -/
theorem factor_mono_partial (knob : ℝ) (x y : ℝ) (h0 : 0 ≤ x) (hxy : x ≤ y) (hmax : y < 2147483648) :
    ∃ a b, factor (loadRatio knob) (.num x) = some a ∧ factor (loadRatio knob) (.num y) = some b ∧ a ≤ b ∧ 0.939286 ≤ a ∧
      b ≤ 1.074656 := by
  rw [loadRatio]
  by_cases hk : max 0 (min 1 knob) > 0
  · simp only [hk, if_true, factor]
    rw [ratioAt_nonneg _ x h0 (by linarith), ratioAt_nonneg _ y (by linarith) hmax]
    refine ⟨_, _, rfl, rfl, ?_⟩
    generalize hT : railsback (max 0 (min 1 knob)) = T
    have hm : ∀ i j : Fin 128, i ≤ j → T i ≤ T j := by rw [← hT]; exact railsback_mono _
    have hb : ∀ i, 0.939286 ≤ T i ∧ T i ≤ 1.074656 := by rw [← hT]; exact railsback_bounds _
    have cm : ∀ a b : ℤ, a ≤ b → clampKey a ≤ clampKey b := by
      intro a b h
      show (clampKey a).val ≤ (clampKey b).val
      simp only [clampKey]; omega
    have fx := Int.fract_nonneg x
    have fx1 := (Int.fract_lt_one x).le
    have fy := Int.fract_nonneg y
    have fy1 := (Int.fract_lt_one y).le
    have hx1 := hb (clampKey ⌊x⌋)
    have hx2 := hb (clampKey (⌊x⌋ + 1))
    have hy1 := hb (clampKey ⌊y⌋)
    have hy2 := hb (clampKey (⌊y⌋ + 1))
    have hxx := hm _ _ (cm ⌊x⌋ (⌊x⌋ + 1) (by omega))
    have hyy := hm _ _ (cm ⌊y⌋ (⌊y⌋ + 1) (by omega))
    refine ⟨?_, by nlinarith, by nlinarith⟩
    rcases (Int.floor_le_floor hxy).lt_or_eq with h | h
    · have hxy' := hm _ _ (cm (⌊x⌋ + 1) ⌊y⌋ (by omega))
      nlinarith
    · rw [h] at hxx ⊢
      have : Int.fract x ≤ Int.fract y := by
        have := Int.self_sub_floor x
        have := Int.self_sub_floor y
        rw [h] at *
        linarith
      nlinarith
  · simp only [hk, if_false, factor]
    exact ⟨1, 1, rfl, rfl, le_rfl, by norm_num, by norm_num⟩

/-- The full claim is false: below key 0 the factor goes down towards the next key number and then jumps back up, so that a higher
key has a smaller factor. -/
theorem factor_mono_violated : ∃ a b, factor (loadRatio 1) (.num (-1)) = some a ∧ factor (loadRatio 1) (.num (-0.5)) = some b ∧ b < a := by
  have hl : loadRatio 1 = some (railsback 1) := by
    simp [loadRatio]
  have t1 : toInt (.num (-1)) = some (-1) := by
    have h : ¬(0 : ℝ) ≤ -1 := by norm_num
    have : ⌈(-1 : ℝ)⌉ = -1 := by rw [Int.ceil_eq_iff]; norm_num
    simp only [toInt, h, if_false, this]
    rw [if_pos (by norm_num)]
  have t2 : toInt (.num (-0.5)) = some 0 := by
    have h : ¬(0 : ℝ) ≤ -0.5 := by norm_num
    have : ⌈(-0.5 : ℝ)⌉ = 0 := by rw [Int.ceil_eq_iff]; norm_num
    simp only [toInt, h, if_false, this]
    rw [if_pos (by norm_num)]
  have c0 : clampKey 0 = 0 := rfl
  have c1 : clampKey (-1) = 0 := rfl
  have c2 : clampKey (((0 : Fin 128).val : ℤ) + 1) = 1 := rfl
  have e0 : entry railsback42 (0 : Fin 128) = 0.968133 := by
    show ((railsback42.getD 0 0 : ℕ) : ℝ) / 1000000 = _
    rw [show railsback42.getD 0 0 = 968133 from rfl]; norm_num
  have e1 : (0.968133 : ℝ) < entry railsback42 (1 : Fin 128) := by
    show (0.968133 : ℝ) < ((railsback42.getD 1 0 : ℕ) : ℝ) / 1000000
    have e3 : (968133 : ℝ) < ((railsback42.getD 1 0 : ℕ) : ℝ) := by exact_mod_cast (by decide : 968133 < railsback42.getD 1 0)
    generalize ((railsback42.getD 1 0 : ℕ) : ℝ) = z at e3 ⊢
    norm_num; linarith
  refine ⟨0.968133, 0.968133 * 1.5 - entry railsback42 (1 : Fin 128) * 0.5, ?_, ?_, ?_⟩
  · rw [hl]; simp only [factor, ratioAt, t1, c1, (knob 1 _).2.2.2.2 le_rfl, e0]
    congr 1; push_cast; ring
  · rw [hl]; simp only [factor, ratioAt, t2, c0, c2, (knob 1 _).2.2.2.2 le_rfl, e0]
    congr 1; push_cast; ring
  · linarith

/-- The knob is not monotonic: at the highest key position 1 stretches less than position 0.5. -/
theorem knob_mono_violated : railsback 1 127 < railsback 0.5 127 := by
  rw [(knob 1 127).2.2.2.2 le_rfl, (knob 0.5 127).2.2.2.1 le_rfl (by norm_num), line]
  show (railsback42.getD 127 0 : ℝ) / 1000000 < _
  have : entry railsback41 (127 : Fin 128) = (railsback41.getD 127 0 : ℝ) / 1000000 := rfl
  rw [this]
  have h : ((railsback42.getD 127 0 : ℕ) : ℝ) < ((railsback41.getD 127 0 : ℕ) : ℝ) := by exact_mod_cast (by decide)
  generalize ((railsback42.getD 127 0 : ℕ) : ℝ) = u at h ⊢
  generalize ((railsback41.getD 127 0 : ℕ) : ℝ) = v at h ⊢
  norm_num
  linarith

/-- With stretch tuning and a reference frequency of 0, starting a voice is not defined. -/
theorem stretch_undefined_violated : ∃ st, Tuning.run Tuning.initial [.setFrequency 0] = .ok (st, [false]) ∧
    factor (loadRatio 1) (st.keyFractional 60) = none := by
  obtain ⟨st, h1, -, h3⟩ := Tuning.zero_frequency_violated
  refine ⟨st, h1, ?_⟩
  have hl : loadRatio 1 = some (railsback 1) := by simp [loadRatio]
  rw [h3, hl]
  rfl

/-- In the equal temperament, with any position of the knob, higher MIDI keys sound higher. -/
theorem keys_ascend (knob : ℝ) (st : Tuning.State) (bs : List Bool) (h : Tuning.run Tuning.initial [] = .ok (st, bs))
    (i j : Fin 128) (hij : i < j) :
    ∃ f g a b, st.frequencyOfKey i = .num f ∧ st.frequencyOfKey j = .num g ∧
      factor (loadRatio knob) (st.keyFractional i) = some a ∧ factor (loadRatio knob) (st.keyFractional j) = some b ∧
      0 < f * a ∧ f * a < g * b := by
  obtain ⟨st', bs', e, -, -, hF⟩ := Tuning.tuning_of_calls [] (by simp)
  rw [e] at h
  cases h
  have hi := i.isLt; have hj := j.isLt
  have hij' : i.val < j.val := hij
  have key : ∀ k : Fin 128, st.keyFractional k = .num k := by
    intro k
    have hk := k.isLt
    have := Tuning.tuning_default [] (by simp) rfl (by simp [Tuning.lastFrequency]) st bs e k (by omega) (by omega)
    rw [this]
    simp [Tuning.lastFrequency]
  have hf := hF (by simp [Tuning.lastFrequency]) Tuning.even_sound _ Tuning.even_isScale
  obtain ⟨a, b, ha, hb, hab, h1, h2⟩ := factor_mono_partial knob (i.val : ℝ) (j.val : ℝ) (by positivity)
    (by exact_mod_cast hij'.le) (by
      have h : ((j.val : ℕ) : ℝ) < 128 := by exact_mod_cast hj
      linarith)
  refine ⟨_, _, a, b, (hf i).1, (hf j).1, by rw [key i]; exact ha, by rw [key j]; exact hb, ?_, ?_⟩
  · have h440 : (0 : ℝ) < ((Tuning.lastFrequency [] 440 : ℚ) : ℝ) := by simp [Tuning.lastFrequency]
    have : (0 : ℝ) < a := by norm_num at h1; linarith
    positivity
  · have h440 : (0 : ℝ) < ((Tuning.lastFrequency [] 440 : ℚ) : ℝ) := by simp [Tuning.lastFrequency]
    have ha0 : (0 : ℝ) < a := by norm_num at h1; linarith
    refine mul_lt_mul_of_pos_of_nonneg' ?_ hab ha0 (by positivity)
    refine mul_lt_mul_of_pos_left ?_ h440
    refine Real.rpow_lt_rpow_of_exponent_lt (by norm_num) ?_
    have e1 : max (-256) (min (((i.val : ℕ) : ℤ)) 255) = i.val := by omega
    have e2 : max (-256) (min (((j.val : ℕ) : ℤ)) 255) = j.val := by omega
    rw [e1, e2]
    have : ((i.val : ℕ) : ℝ) < ((j.val : ℕ) : ℝ) := by exact_mod_cast hij'
    push_cast
    linarith

/-! ### Examples -/

example : railsback 0.75 60 = line 0.5 (entry railsback41 60) 1 (entry railsback42 60) 0.75 :=
  (knob 0.75 60).2.2.2.1 (by norm_num) (by norm_num)

/-- A knob halfway, key 60.5. -/
example : ∃ a, factor (loadRatio 0.5) (.num 60.5) = some a ∧ entry railsback41 60 ≤ a := by
  have hl : loadRatio 0.5 = some (railsback 0.5) := by
    have : max 0 (min 1 (0.5 : ℝ)) = 0.5 := by norm_num
    simp only [loadRatio, this]
    rw [if_pos (by norm_num)]
  have hb := between_keys (railsback 0.5) 60 (by omega) 60.5 (by norm_num) (by norm_num)
  refine ⟨_, by rw [hl]; exact hb, ?_⟩
  have h1 := railsback_mono 0.5 ⟨60, by omega⟩ ⟨61, by omega⟩ (by decide)
  have h2 : railsback 0.5 ⟨60, by omega⟩ = entry railsback41 60 := by
    rw [(knob 0.5 _).2.2.2.1 le_rfl (by norm_num), line]; norm_num
  rw [h2] at h1
  rw [line, h2]
  norm_num at h1 ⊢
  linarith

end Verif.Stretch
