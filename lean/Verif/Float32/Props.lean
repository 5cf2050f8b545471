import Verif.Float32.Model
import Mathlib.Tactic.Linarith
import Mathlib.Tactic.Ring
import Mathlib.Tactic.Positivity
import Mathlib.Tactic.FieldSimp
import Mathlib.Tactic.NormNum
import Mathlib.Tactic.Push
import Mathlib.Algebra.Order.Field.Power

/-!
What the rounding of `Float32.Model` is: the nearest float, monotone, the identity on floats.
-/
namespace Verif.Float32

/-! ## Rounding to integers -/

lemma roundEven_near (q : ℚ) : |(roundEven q : ℚ) - q| ≤ 1 / 2 := by
  have h1 := Int.floor_le q
  have h2 := Int.lt_floor_add_one q
  unfold roundEven
  split_ifs <;> push_cast <;> rw [abs_le] <;> constructor <;> linarith

lemma roundEven_int (n : ℤ) : roundEven n = n := by simp [roundEven]

lemma roundEven_mono {p q : ℚ} (h : p ≤ q) : roundEven p ≤ roundEven q := by
  have hf := Int.floor_le_floor h
  have h1 := Int.floor_le p
  have h2 := Int.lt_floor_add_one p
  have h3 := Int.floor_le q
  have h4 := Int.lt_floor_add_one q
  rcases eq_or_lt_of_le hf with he | hl
  · unfold roundEven
    rw [he] at *
    split_ifs <;> first | omega | (exfalso; linarith)
  · have : roundEven p ≤ ⌊p⌋ + 1 := by unfold roundEven; split_ifs <;> omega
    have : ⌊q⌋ ≤ roundEven q := by unfold roundEven; split_ifs <;> omega
    omega

lemma roundEven_neg (q : ℚ) : roundEven (-q) = -roundEven q := by
  have h1 := Int.floor_le q
  have h2 := Int.lt_floor_add_one q
  by_cases hq : q = ⌊q⌋
  · rw [hq, roundEven_int, ← Int.cast_neg, roundEven_int]
  · have hlt : (⌊q⌋ : ℚ) < q := lt_of_le_of_ne h1 (Ne.symm hq)
    have hf : ⌊-q⌋ = -⌊q⌋ - 1 := by
      rw [Int.floor_eq_iff]; push_cast; constructor <;> linarith
    unfold roundEven
    rw [hf]; push_cast
    split_ifs <;> first | omega | (exfalso; linarith)

lemma roundEven_nearest (q : ℚ) (n : ℤ) : |(roundEven q : ℚ) - q| ≤ |(n : ℚ) - q| := by
  have h := roundEven_near q
  by_cases hn : (1 : ℚ) / 2 ≤ |(n : ℚ) - q|
  · linarith
  · push Not at hn
    have he : roundEven q = n := by
      have : |(roundEven q : ℚ) - n| < 1 := by
        calc |(roundEven q : ℚ) - n| = |((roundEven q : ℚ) - q) - (n - q)| := by ring_nf
          _ ≤ |(roundEven q : ℚ) - q| + |(n : ℚ) - q| := abs_sub _ _
          _ < 1 := by linarith
      have h' : |(roundEven q - n : ℤ)| < 1 := by exact_mod_cast this
      rw [Int.abs_lt_one_iff] at h'; omega
    rw [he]

/-! ## Binades -/

lemma ulp_pos (x : ℚ) : 0 < ulp x := by unfold ulp; positivity

lemma ulp_neg (x : ℚ) : ulp (-x) = ulp x := by simp [ulp, binExp]

lemma fl_neg (x : ℚ) : fl (-x) = -fl x := by
  unfold fl; rw [ulp_neg, neg_div, roundEven_neg]; push_cast; ring

lemma fl_zero : fl 0 = 0 := by simp [fl, roundEven]

lemma zpow_mono {a b : ℤ} (h : a ≤ b) : (2 : ℚ) ^ a ≤ 2 ^ b := zpow_le_zpow_right₀ (by norm_num) h

lemma zpow_lt_iff {a b : ℤ} : (2 : ℚ) ^ a < 2 ^ b ↔ a < b := zpow_lt_zpow_iff_right₀ (by norm_num)

lemma zpow_le_iff {a b : ℤ} : (2 : ℚ) ^ a ≤ 2 ^ b ↔ a ≤ b := zpow_le_zpow_iff_right₀ (by norm_num)

/-- A power of two is an integer multiple of any lower one. -/
lemma zpow_mult {a b : ℤ} (h : a ≤ b) : ∃ n : ℤ, (2 : ℚ) ^ b = n * 2 ^ a := by
  refine ⟨2 ^ (b - a).toNat, ?_⟩
  push_cast
  rw [← zpow_natCast, ← zpow_add₀ (by norm_num)]; congr 1; omega

lemma lt_binade {x : ℚ} : |x| < 2 ^ (binExp x + 1) := by
  rcases eq_or_ne x 0 with h | h
  · subst h; simp; positivity
  · have h1 : |x| < (2 : ℚ) ^ (Int.log 2 |x| + 1) := by
      have := Int.lt_zpow_succ_log_self (b := 2) (by norm_num) |x|; simpa using this
    exact lt_of_lt_of_le h1 (zpow_mono (by unfold binExp; omega))

lemma log_le {x : ℚ} (h : 0 < x) : (2 : ℚ) ^ Int.log 2 x ≤ x := by
  have := Int.zpow_log_le_self (b := 2) (by norm_num) h; simpa using this

lemma lt_log {x : ℚ} : x < (2 : ℚ) ^ (Int.log 2 x + 1) := by
  have := Int.lt_zpow_succ_log_self (b := 2) (by norm_num) x; simpa using this

lemma log_unique {x : ℚ} {e : ℤ} (h1 : (2 : ℚ) ^ e ≤ x) (h2 : x < 2 ^ (e + 1)) : Int.log 2 x = e := by
  have hx : 0 < x := lt_of_lt_of_le (by positivity) h1
  have a := zpow_lt_iff.mp (lt_of_le_of_lt h1 lt_log)
  have b := zpow_lt_iff.mp (lt_of_le_of_lt (log_le hx) h2)
  omega

/-- A float is a multiple of every power of two not above the distance of the floats of its binade. -/
lemma IsFloat.multiple {g : ℚ} (hg : IsFloat g) {u : ℤ} (hu : u ≤ -149 ∨ 2 ^ (u + 23) ≤ |g|) :
    ∃ n : ℤ, g = n * (2 : ℚ) ^ u := by
  obtain ⟨m, e, hm, he, rfl⟩ := hg
  have hue : u ≤ e := by
    rcases hu with hu | hu
    · omega
    · rw [abs_mul, abs_of_pos (show (0 : ℚ) < 2 ^ e by positivity)] at hu
      have hm' : |(m : ℚ)| < 2 ^ (24 : ℤ) := by exact_mod_cast hm
      have : (2 : ℚ) ^ (u + 23) < 2 ^ (24 + e) := by
        rw [zpow_add₀ (by norm_num) 24 e]
        exact lt_of_le_of_lt hu (mul_lt_mul_of_pos_right hm' (by positivity))
      have := zpow_lt_iff.mp this; omega
  obtain ⟨n, hn⟩ := zpow_mult hue
  exact ⟨m * n, by rw [hn]; push_cast; ring⟩

/-- What the floats are, seen from a positive number: multiples of its distance, or below its binade. -/
lemma IsFloat.seen {g x : ℚ} (hg : IsFloat g) (hx : 0 < x) :
    (∃ n : ℤ, g = n * ulp x) ∨ (g < 2 ^ Int.log 2 x ∧ binExp x = Int.log 2 x) := by
  unfold ulp binExp
  rw [abs_of_pos hx]
  rcases le_total (Int.log 2 x) (-126) with h | h
  · left; rw [max_eq_right h]; exact hg.multiple (.inl (by norm_num))
  · rw [max_eq_left h]
    by_cases hgx : g < 2 ^ Int.log 2 x
    · exact .inr ⟨hgx, rfl⟩
    · push Not at hgx
      left; refine hg.multiple (.inr ?_)
      rw [sub_add_cancel]; exact hgx.trans (le_abs_self g)

lemma binade_mult {x : ℚ} : binExp x = Int.log 2 x → ∃ n : ℤ, (2 : ℚ) ^ Int.log 2 x = n * ulp x := by
  intro h; unfold ulp; rw [h]; exact zpow_mult (by omega)

/-- The rounded number seen from the integers. -/
lemma fl_le_mult {x : ℚ} {n : ℤ} (h : x ≤ n * ulp x) : fl x ≤ n * ulp x := by
  have h1 : x / ulp x ≤ n := by rw [div_le_iff₀ (ulp_pos x)]; exact h
  have h2 := roundEven_mono h1
  rw [roundEven_int] at h2
  exact mul_le_mul_of_nonneg_right (by exact_mod_cast h2) (ulp_pos x).le

lemma mult_le_fl {x : ℚ} {n : ℤ} (h : n * ulp x ≤ x) : n * ulp x ≤ fl x := by
  have h1 : (n : ℚ) ≤ x / ulp x := by rw [le_div_iff₀ (ulp_pos x)]; exact h
  have h2 := roundEven_mono h1
  rw [roundEven_int] at h2
  exact mul_le_mul_of_nonneg_right (by exact_mod_cast h2) (ulp_pos x).le

lemma fl_nonneg {x : ℚ} (h : 0 ≤ x) : 0 ≤ fl x := by
  have := mult_le_fl (x := x) (n := 0) (by simpa using h); simpa using this

/-- **The result of an operation is at most half the distance of the floats away from the exact one.** -/
theorem fl_error (x : ℚ) : |fl x - x| ≤ ulp x / 2 := by
  have h := roundEven_near (x / ulp x)
  have hu := ulp_pos x
  have : fl x - x = (roundEven (x / ulp x) - x / ulp x) * ulp x := by
    unfold fl; rw [sub_mul, div_mul_cancel₀ _ hu.ne']
  rw [this, abs_mul, abs_of_pos hu]
  nlinarith

/-- **A result halfway between two floats goes to the one whose last bit is 0.** -/
theorem fl_tie (x : ℚ) (h : |fl x - x| = ulp x / 2) : ∃ n : ℤ, fl x = (2 * n : ℤ) * ulp x := by
  have hu := ulp_pos x
  have e : fl x - x = (roundEven (x / ulp x) - x / ulp x) * ulp x := by
    unfold fl; rw [sub_mul, div_mul_cancel₀ _ hu.ne']
  rw [e, abs_mul, abs_of_pos hu] at h
  have h1 : |(roundEven (x / ulp x) : ℚ) - x / ulp x| = 1 / 2 :=
    mul_right_cancel₀ hu.ne' (by rw [h]; ring)
  have h2 : ∃ n : ℤ, roundEven (x / ulp x) = 2 * n := by
    generalize x / ulp x = q at h1
    have hf := Int.floor_le q
    have hc := Int.lt_floor_add_one q
    unfold roundEven at h1 ⊢
    split at h1
    · rename_i h3
      rw [abs_of_nonpos (by linarith)] at h1
      exfalso; linarith
    · split at h1
      · rename_i h3 h4
        push_cast at h1
        rw [abs_of_nonneg (by linarith)] at h1
        exfalso; linarith
      · rename_i h3 h4
        rw [if_neg h3, if_neg h4]
        split
        · exact ⟨⌊q⌋ / 2, by omega⟩
        · exact ⟨(⌊q⌋ + 1) / 2, by omega⟩
  obtain ⟨n, hn⟩ := h2
  exact ⟨n, by unfold fl; rw [hn]⟩

/-- 2^24 + 1 lies halfway between two floats. -/
example : fl 16777217 = 16777216 ∧ |fl 16777217 - 16777217| = ulp 16777217 / 2 := by decide +kernel

/-- **The result of an operation is a float.** -/
theorem fl_isFloat (x : ℚ) : IsFloat (fl x) := by
  have hu := ulp_pos x
  have hq : |x / ulp x| < 2 ^ 24 := by
    rw [abs_div, abs_of_pos hu, div_lt_iff₀ hu]
    calc |x| < 2 ^ (binExp x + 1) := lt_binade
      _ = 2 ^ 24 * ulp x := by
        unfold ulp; rw [← zpow_natCast, ← zpow_add₀ (by norm_num)]; congr 1; push_cast; ring
  have hle : |roundEven (x / ulp x)| ≤ 2 ^ 24 := by
    rw [abs_lt] at hq
    have h1 := roundEven_mono (p := ((-16777216 : ℤ) : ℚ)) (q := x / ulp x) (by push_cast; linarith [hq.1])
    have h2 := roundEven_mono (q := ((16777216 : ℤ) : ℚ)) (p := x / ulp x) (by push_cast; linarith [hq.2])
    rw [roundEven_int] at h1 h2
    norm_num
    rw [abs_le]; exact ⟨h1, h2⟩
  have hb : -149 ≤ binExp x - 23 := by unfold binExp; omega
  rcases lt_or_eq_of_le hle with h | h
  · exact ⟨_, _, h, hb, rfl⟩
  · have hz : (2 : ℚ) ^ (binExp x - 22) = 2 * 2 ^ (binExp x - 23) := by
      rw [show binExp x - 22 = (binExp x - 23) + 1 by ring, zpow_add_one₀ (by norm_num)]; ring
    rcases (abs_eq (by norm_num)).mp h with h | h
    · refine ⟨2 ^ 23, binExp x - 22, by norm_num, by omega, ?_⟩
      unfold fl; rw [h, hz, ulp]; push_cast; ring
    · refine ⟨-2 ^ 23, binExp x - 22, by norm_num, by omega, ?_⟩
      unfold fl; rw [h, hz, ulp]; push_cast; ring

/-- **Rounding leaves floats as they are.** -/
theorem fl_of_isFloat {x : ℚ} (h : IsFloat x) : fl x = x := by
  rcases eq_or_ne x 0 with h0 | h0
  · rw [h0, fl_zero]
  have hm : ∃ n : ℤ, x = n * ulp x := by
    unfold ulp
    refine h.multiple ?_
    unfold binExp
    rcases le_total (Int.log 2 |x|) (-126) with hl | hl
    · left; rw [max_eq_right hl]; norm_num
    · rw [max_eq_left hl, sub_add_cancel]
      exact .inr (log_le (abs_pos.mpr h0))
  obtain ⟨n, hn⟩ := hm
  have hu := ulp_pos x
  unfold fl
  have : x / ulp x = n := by rw [div_eq_iff hu.ne']; exact hn
  rw [this, roundEven_int, ← hn]

lemma IsFloat.neg {x : ℚ} (h : IsFloat x) : IsFloat (-x) := by
  obtain ⟨m, e, hm, he, rfl⟩ := h
  exact ⟨-m, e, by rwa [abs_neg], he, by push_cast; ring⟩

lemma isFloat_int {n : ℤ} (h : |n| < 2 ^ 24) : IsFloat n := ⟨n, 0, h, by norm_num, by simp⟩

lemma isFloat_zpow {e : ℤ} (h : -149 ≤ e) : IsFloat (2 ^ e) := ⟨1, e, by norm_num, h, by simp⟩

/-- **No float is nearer to the exact result than the one returned.** -/
theorem fl_nearest (x : ℚ) {g : ℚ} (hg : IsFloat g) : |fl x - x| ≤ |g - x| := by
  have key : ∀ {x g : ℚ}, 0 < x → IsFloat g → |fl x - x| ≤ |g - x| := by
    intro x g hx hg
    have hu := ulp_pos x
    have hmul : ∀ n : ℤ, |fl x - x| ≤ |n * ulp x - x| := by
      intro n
      have h := roundEven_nearest (x / ulp x) n
      have e1 : fl x - x = (roundEven (x / ulp x) - x / ulp x) * ulp x := by
        unfold fl; rw [sub_mul, div_mul_cancel₀ _ hu.ne']
      have e2 : n * ulp x - x = (n - x / ulp x) * ulp x := by rw [sub_mul, div_mul_cancel₀ _ hu.ne']
      rw [e1, e2, abs_mul, abs_mul]
      exact mul_le_mul_of_nonneg_right h (abs_nonneg _)
    rcases hg.seen hx with ⟨n, hn⟩ | ⟨hlt, hb⟩
    · rw [hn]; exact hmul n
    · obtain ⟨n, hn⟩ := binade_mult hb
      have h1 := hmul n
      rw [← hn] at h1
      have h2 := log_le hx
      rw [abs_of_nonpos (by linarith : (2 : ℚ) ^ Int.log 2 x - x ≤ 0)] at h1
      rw [abs_of_nonpos (by linarith : g - x ≤ 0)]
      linarith
  rcases lt_trichotomy x 0 with h | h | h
  · have := key (x := -x) (g := -g) (by linarith) hg.neg
    rw [fl_neg] at this
    rw [abs_sub_comm, abs_sub_comm g]
    rw [show -fl x - -x = x - fl x by ring, show -g - -x = x - g by ring] at this
    exact this
  · subst h; rw [fl_zero]; simp
  · exact key h hg

lemma fl_le_of_le {x g : ℚ} (hg : IsFloat g) (h : x ≤ g) : fl x ≤ g := by
  have h1 := fl_nearest x hg
  by_contra hc
  push Not at hc
  rw [abs_of_nonneg (by linarith : 0 ≤ fl x - x), abs_of_nonneg (by linarith : 0 ≤ g - x)] at h1
  linarith

lemma le_fl_of_le {x g : ℚ} (hg : IsFloat g) (h : g ≤ x) : g ≤ fl x := by
  have h1 := fl_nearest x hg
  by_contra hc
  push Not at hc
  rw [abs_of_nonpos (by linarith : fl x - x ≤ 0), abs_of_nonpos (by linarith : g - x ≤ 0)] at h1
  linarith

/-- **Rounding keeps the order.** -/
theorem fl_mono {x y : ℚ} (h : x ≤ y) : fl x ≤ fl y := by
  have pos : ∀ {x y : ℚ}, 0 < x → x ≤ y → fl x ≤ fl y := by
    intro x y hx h
    have hy : 0 < y := lt_of_lt_of_le hx h
    have hl : Int.log 2 x ≤ Int.log 2 y := Int.log_mono_right hx h
    have hb : binExp x ≤ binExp y := by
      unfold binExp; rw [abs_of_pos hx, abs_of_pos hy]; exact max_le_max_right _ hl
    rcases eq_or_lt_of_le hb with he | hlt
    · unfold fl
      have hu : ulp x = ulp y := by unfold ulp; rw [he]
      rw [hu]
      have h1 : x / ulp y ≤ y / ulp y := by
        rw [div_le_div_iff_of_pos_right (ulp_pos y)]; exact h
      exact mul_le_mul_of_nonneg_right (by exact_mod_cast roundEven_mono h1) (ulp_pos y).le
    · have hy' : binExp y = Int.log 2 y := by
        unfold binExp at hlt ⊢; rw [abs_of_pos hx, abs_of_pos hy] at *
        omega
      have hf : IsFloat (2 ^ Int.log 2 y) := isFloat_zpow (by unfold binExp at hy' ; omega)
      have h1 : x ≤ 2 ^ Int.log 2 y := by
        have := lt_binade (x := x)
        rw [abs_of_pos hx] at this
        exact this.le.trans (zpow_mono (by omega))
      exact (fl_le_of_le hf h1).trans (le_fl_of_le hf (log_le hy))
  have f0 : IsFloat 0 := ⟨0, 0, by norm_num, by norm_num, by simp⟩
  rcases lt_or_ge 0 x with hx | hx
  · exact pos hx h
  · rcases lt_or_ge y 0 with hy | hy
    · have := pos (x := -y) (y := -x) (by linarith) (by linarith)
      rw [fl_neg, fl_neg] at this; linarith
    · exact (fl_le_of_le f0 hx).trans (le_fl_of_le f0 hy)

/-! ## The float below -/

lemma below_lt {x : ℚ} : below x < x := by
  have := ulp_pos x
  unfold below; split_ifs <;> linarith

/-- **`below x` is the next float: a float is smaller than `x` exactly if it is at most `below x`.** -/
theorem le_below_iff {x y : ℚ} (hx : 0 < x) (hf : IsFloat x) (hy : IsFloat y) : y ≤ below x ↔ y < x := by
  refine ⟨fun h => lt_of_le_of_lt h below_lt, fun h => ?_⟩
  have hu := ulp_pos x
  have step : ∀ {a b : ℤ} {u : ℚ}, 0 < u → (a : ℚ) * u < b * u → (a : ℚ) * u ≤ b * u - u := by
    intro a b u hu h
    have hab : (a : ℚ) < b := lt_of_mul_lt_mul_right h hu.le
    have hab' : a + 1 ≤ b := by exact_mod_cast hab
    have : (a : ℚ) + 1 ≤ b := by exact_mod_cast hab'
    nlinarith
  obtain ⟨n, hn⟩ : ∃ n : ℤ, x = n * ulp x := by
    rcases hf.seen hx with h | ⟨h, -⟩
    · exact h
    · exact absurd (log_le hx) (by linarith)
  unfold below
  split_ifs with hp
  · obtain ⟨hp, hl⟩ := hp
    set L := Int.log 2 x with hL
    have hbx : binExp x = L := by unfold binExp; rw [abs_of_pos hx]; omega
    have hub : ulp x / 2 = 2 ^ (L - 24) := by
      unfold ulp; rw [hbx, show L - 23 = (L - 24) + 1 by ring, zpow_add_one₀ (by norm_num)]; ring
    have h24 : (2 : ℚ) ^ L = 2 ^ 24 * 2 ^ (L - 24) := by
      rw [← zpow_natCast, ← zpow_add₀ (by norm_num)]; congr 1; push_cast; ring
    have h1 : (2 : ℚ) ^ L = 2 * 2 ^ (L - 1) := by
      rw [show L = (L - 1) + 1 by ring, zpow_add_one₀ (by norm_num)]; ring_nf
    have hv : (0 : ℚ) < 2 ^ (L - 24) := by positivity
    rw [hub]
    set z := x - 2 ^ (L - 24) with hz
    have hzl : (2 : ℚ) ^ (L - 1) ≤ z := by rw [hz]; linarith
    have hz0 : 0 < z := lt_of_lt_of_le (by positivity) hzl
    have hlog : Int.log 2 z = L - 1 := log_unique hzl (by rw [hz, sub_add_cancel]; linarith)
    have hbz : binExp z = L - 1 := by unfold binExp; rw [abs_of_pos hz0, hlog]; omega
    have huz : ulp z = 2 ^ (L - 24) := by unfold ulp; rw [hbz]; congr 1; ring
    rcases hy.seen hz0 with ⟨k, hk⟩ | ⟨hlt, -⟩
    · rw [huz] at hk
      rw [hk, hz]
      have hxm : x = ((2 ^ 24 : ℤ) : ℚ) * 2 ^ (L - 24) := by rw [hp, h24]; push_cast; ring
      rw [hk, hxm] at h
      rw [hxm]; exact step hv h
    · rw [hlog] at hlt; linarith
  · rcases hy.seen hx with ⟨k, hk⟩ | ⟨hlt, hb⟩
    · rw [hk]
      have : (k : ℚ) * ulp x < n * ulp x := by rw [← hk, ← hn]; exact h
      have := step hu this
      rw [← hn] at this; exact this
    · obtain ⟨k, hk⟩ := binade_mult hb
      by_cases hne : x = 2 ^ Int.log 2 x
      · -- the lowest binade of normal numbers goes on below with the same distance
        have hge : Int.log 2 x = -126 := by
          have : -126 ≤ Int.log 2 x := by rw [← hb]; unfold binExp; omega
          by_contra hc
          exact hp ⟨hne, by omega⟩
        obtain ⟨j, hj⟩ := hy.multiple (u := -149) (.inl le_rfl)
        have hux : ulp x = 2 ^ (-149 : ℤ) := by unfold ulp; rw [hb, hge]; norm_num
        rw [← hux] at hj
        have : (j : ℚ) * ulp x < n * ulp x := by rw [← hj, ← hn]; exact h
        have := step hu this
        rw [← hj, ← hn] at this; exact this
      have hlt' : (2 : ℚ) ^ Int.log 2 x < x := lt_of_le_of_ne (log_le hx) (Ne.symm hne)
      have : (k : ℚ) * ulp x < n * ulp x := by rw [← hk, ← hn]; exact hlt'
      have := step hu this
      rw [← hk, ← hn] at this
      linarith

end Verif.Float32
