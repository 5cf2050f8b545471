import Mathlib.Algebra.BigOperators.Intervals
import Mathlib.Algebra.Order.BigOperators.Ring.Finset
import Mathlib.Analysis.SpecificLimits.Basic
import Mathlib.Topology.Algebra.InfiniteSum.Real
import Mathlib.Tactic.LinearCombination
import Mathlib.Analysis.SpecialFunctions.Sqrt
import Mathlib.Tactic.FieldSimp

/-!
# Energy of signals and what filters do to it

The energy of the first `T` frames of a signal, each frame `n` weighted with `W ^ n`.  Lemmas bound
the energy that leaves a delay, an all-pass comb, a one-pole filter, and a loop of two of these, by
the energy that enters.  Nothing here refers to the code.
-/

namespace Verif.Reverb

open Finset

/-- The weighted energy of the first `T` frames. -/
noncomputable def E (W : ℝ) (x : ℕ → ℝ) (T : ℕ) : ℝ := ∑ n ∈ range T, W ^ n * x n ^ 2

/-- `y` carries at most `K` times the energy of `x`, up to a constant. -/
def Gain (W K : ℝ) (y x : ℕ → ℝ) : Prop := ∃ C, 0 ≤ C ∧ ∀ T, E W y T ≤ K * E W x T + C

/-- A signal delayed by `k` frames. -/
def delay (k : ℕ) (x : ℕ → ℝ) (n : ℕ) : ℝ := if k ≤ n then x (n - k) else 0

variable {W : ℝ}

lemma E_nonneg (hW : 0 ≤ W) (x : ℕ → ℝ) (T : ℕ) : 0 ≤ E W x T :=
  sum_nonneg fun n _ => mul_nonneg (pow_nonneg hW n) (sq_nonneg _)

lemma E_succ (x : ℕ → ℝ) (T : ℕ) : E W x (T + 1) = E W x T + W ^ T * x T ^ 2 := by
  simp [E, sum_range_succ]

lemma E_mono (hW : 0 ≤ W) (x : ℕ → ℝ) {S T : ℕ} (h : S ≤ T) : E W x S ≤ E W x T :=
  sum_le_sum_of_subset_of_nonneg (range_mono h)
    fun n _ _ => mul_nonneg (pow_nonneg hW n) (sq_nonneg _)

/-- A sum of non-negative terms delayed by `k` frames. -/
lemma sum_delay_le (k : ℕ) (f : ℕ → ℝ) (hf : ∀ n, 0 ≤ f n) (T : ℕ) :
    ∑ n ∈ range T, (if k ≤ n then f (n - k) else 0) ≤ ∑ n ∈ range T, f n := by
  rcases le_total T k with h | h
  · rw [sum_eq_zero]
    · exact sum_nonneg fun n _ => hf n
    · intro n hn
      have := mem_range.1 hn
      simp [show ¬ k ≤ n by omega]
  · obtain ⟨S, rfl⟩ := Nat.exists_eq_add_of_le h
    rw [sum_range_add]
    rw [sum_eq_zero (s := range k)]
    · rw [zero_add]
      have : ∑ x ∈ range S, (if k ≤ k + x then f (k + x - k) else 0) = ∑ x ∈ range S, f x := by
        refine sum_congr rfl fun x _ => ?_
        simp
      rw [this]
      exact sum_le_sum_of_subset_of_nonneg (range_mono (by omega)) fun n _ _ => hf n
    · intro n hn
      have := mem_range.1 hn
      simp [show ¬ k ≤ n by omega]

lemma gain_delay (hW : 1 ≤ W) (k : ℕ) (x : ℕ → ℝ) : Gain W (W ^ k) (delay k x) x := by
  refine ⟨0, le_refl _, fun T => ?_⟩
  rw [add_zero]
  have hp : ∀ n, 0 ≤ W ^ n := fun n => pow_nonneg (by linarith) n
  have := sum_delay_le k (fun n => W ^ k * (W ^ n * x n ^ 2))
    (fun n => mul_nonneg (hp k) (mul_nonneg (hp n) (sq_nonneg _))) T
  rw [E, E, mul_sum]
  refine le_trans (le_of_eq ?_) this
  refine sum_congr rfl fun n _ => ?_
  unfold delay
  split_ifs with h
  · rw [← mul_assoc, ← pow_add, show k + (n - k) = n by omega]
  · ring

lemma Gain.mono {K L : ℝ} {y x : ℕ → ℝ} (hW : 0 ≤ W) (h : Gain W K y x) (hKL : K ≤ L) :
    Gain W L y x := by
  obtain ⟨C, hC, h⟩ := h
  exact ⟨C, hC, fun T => le_trans (h T)
    (by have := mul_le_mul_of_nonneg_right hKL (E_nonneg hW x T); linarith)⟩

lemma Gain.trans {K L : ℝ} {z y x : ℕ → ℝ} (hL : 0 ≤ L) (hz : Gain W L z y) (hy : Gain W K y x) :
    Gain W (L * K) z x := by
  obtain ⟨C, hC, hz⟩ := hz
  obtain ⟨D, hD, hy⟩ := hy
  refine ⟨L * D + C, by positivity, fun T => ?_⟩
  have := mul_le_mul_of_nonneg_left (hy T) hL
  have := hz T
  nlinarith

lemma gain_mul (hW : 0 ≤ W) {c : ℕ → ℝ} {δ : ℝ} (hc : ∀ n, |c n| ≤ δ) (x : ℕ → ℝ) :
    Gain W (δ ^ 2) (fun n => c n * x n) x := by
  refine ⟨0, le_refl _, fun T => ?_⟩
  rw [add_zero, E, E, mul_sum]
  refine sum_le_sum fun n _ => ?_
  have h1 : c n ^ 2 ≤ δ ^ 2 := sq_le_sq' (by linarith [neg_abs_le (c n), hc n]) (le_trans (le_abs_self _) (hc n))
  have h2 := mul_le_mul_of_nonneg_right h1 (mul_nonneg (pow_nonneg hW n) (sq_nonneg (x n)))
  calc W ^ n * (c n * x n) ^ 2 = c n ^ 2 * (W ^ n * x n ^ 2) := by ring
    _ ≤ _ := h2

/-- `(x + y)² ≤ (1 + 1/t) x² + (1 + t) y²`. -/
lemma sq_add_le (x y : ℝ) {t : ℝ} (ht : 0 < t) :
    (x + y) ^ 2 ≤ (1 + 1 / t) * x ^ 2 + (1 + t) * y ^ 2 := by
  have : (1 + 1 / t) * x ^ 2 + (1 + t) * y ^ 2 - (x + y) ^ 2 = (x - t * y) ^ 2 / t := by
    field_simp
    ring
  have h2 : 0 ≤ (x - t * y) ^ 2 / t := by positivity
  linarith

lemma E_add_le (hW : 0 ≤ W) (x y : ℕ → ℝ) {t : ℝ} (ht : 0 < t) (T : ℕ) :
    E W (fun n => x n + y n) T ≤ (1 + 1 / t) * E W x T + (1 + t) * E W y T := by
  rw [E, E, E, mul_sum, mul_sum, ← sum_add_distrib]
  refine sum_le_sum fun n _ => ?_
  have := mul_le_mul_of_nonneg_left (sq_add_le (x n) (y n) ht) (pow_nonneg hW n)
  linarith

/-- What leaves a comb's delay, against what enters it, for every weight that does not rise. -/
def Held (W ε : ℝ) (e s : ℕ → ℝ) : Prop :=
  ∀ c : ℕ → ℝ, (∀ n, 0 ≤ c n) → Antitone c → ∃ C, 0 ≤ C ∧ ∀ T,
    ∑ n ∈ range T, W ^ n * (c n * e n ^ 2) ≤ (1 + ε) * ∑ n ∈ range T, W ^ n * (c n * s n ^ 2) + C

lemma held_delay (hW : 1 ≤ W) {ε : ℝ} (k : ℕ) (hk : W ^ k ≤ 1 + ε) (s : ℕ → ℝ) :
    Held W ε (delay k s) s := by
  intro c hc hca
  have hp : ∀ n, 0 ≤ W ^ n := fun n => pow_nonneg (by linarith) n
  refine ⟨0, le_refl _, fun T => ?_⟩
  rw [add_zero, mul_sum]
  refine le_trans ?_ (sum_delay_le k (fun n => (1 + ε) * (W ^ n * (c n * s n ^ 2)))
    (fun n => mul_nonneg (le_trans (hp k) hk)
      (mul_nonneg (hp n) (mul_nonneg (hc n) (sq_nonneg _)))) T)
  refine sum_le_sum fun n _ => ?_
  unfold delay
  split_ifs with h
  · have h1 : c n ≤ c (n - k) := hca (by omega)
    have h2 : W ^ n = W ^ k * W ^ (n - k) := by rw [← pow_add]; congr 1; omega
    rw [h2]
    have h3 : 0 ≤ W ^ (n - k) * s (n - k) ^ 2 := mul_nonneg (hp _) (sq_nonneg _)
    calc W ^ k * W ^ (n - k) * (c n * s (n - k) ^ 2)
        = (W ^ k * c n) * (W ^ (n - k) * s (n - k) ^ 2) := by ring
      _ ≤ ((1 + ε) * c (n - k)) * (W ^ (n - k) * s (n - k) ^ 2) := by
        refine mul_le_mul_of_nonneg_right ?_ h3
        exact mul_le_mul hk h1 (hc n) (le_trans (hp k) hk)
      _ = _ := by ring
  · simp

/-- An all-pass comb: how much the energy can grow when its delay is not quite even-handed. -/
lemma gain_comb (hW : 1 ≤ W) {ε γ κ t : ℝ} (hε : 0 ≤ ε) (hκ : 0 ≤ κ) (ht : 0 < t)
    {g x s e y : ℕ → ℝ} (hs : ∀ n, s n = x n - g n * e n) (hy : ∀ n, y n = g n * s n + e n)
    (hg : ∀ n, |g n| ≤ γ) (hγ : γ ≤ 1) (hmono : Antitone fun n => 1 - g n ^ 2)
    (hκg : ∃ n₀, ∀ n, n₀ ≤ n → 1 - g n ^ 2 ≤ κ) (hh : Held W ε e s)
    (hθ : (1 + t) * γ ^ 2 * (1 + ε) < 1) :
    Gain W (1 + ε * κ * (1 + 1 / t) / (1 - (1 + t) * γ ^ 2 * (1 + ε))) y x := by
  have hW0 : 0 ≤ W := by linarith
  have hp : ∀ n, 0 ≤ W ^ n := fun n => pow_nonneg hW0 n
  have hg2 : ∀ n, g n ^ 2 ≤ γ ^ 2 := fun n =>
    sq_le_sq' (by linarith [neg_abs_le (g n), hg n]) (le_trans (le_abs_self _) (hg n))
  have hγ0 : 0 ≤ γ := le_trans (abs_nonneg _) (hg 0)
  have hg1 : ∀ n, g n ^ 2 ≤ 1 := fun n => le_trans (hg2 n) (by nlinarith)
  set θ := (1 + t) * γ ^ 2 * (1 + ε) with hθd
  obtain ⟨C1, hC1, h1⟩ := hh (fun _ => 1) (fun _ => zero_le_one) (fun _ _ _ => le_refl _)
  obtain ⟨C2, hC2, h2⟩ := hh (fun n => 1 - g n ^ 2) (fun n => by linarith [hg1 n]) hmono
  obtain ⟨n₀, hn₀⟩ := hκg
  -- the energy inside
  have hEs : ∀ T, E W s T ≤ ((1 + 1 / t) * E W x T + (1 + t) * γ ^ 2 * C1) / (1 - θ) := by
    intro T
    have a1 : E W s T ≤ (1 + 1 / t) * E W x T + (1 + t) * E W (fun n => (-g n) * e n) T := by
      refine le_trans (le_of_eq ?_) (E_add_le hW0 x (fun n => (-g n) * e n) ht T)
      rw [E, E]
      refine sum_congr rfl fun n _ => ?_
      rw [hs n]; ring
    have a2 : E W (fun n => (-g n) * e n) T ≤ γ ^ 2 * E W e T := by
      rw [E, E, mul_sum]
      refine sum_le_sum fun n _ => ?_
      have := mul_le_mul_of_nonneg_right (hg2 n) (mul_nonneg (hp n) (sq_nonneg (e n)))
      calc W ^ n * (-g n * e n) ^ 2 = g n ^ 2 * (W ^ n * e n ^ 2) := by ring
        _ ≤ _ := this
    have a3 : E W e T ≤ (1 + ε) * E W s T + C1 := by
      have := h1 T
      simpa [E] using this
    rw [le_div_iff₀ (by linarith)]
    have a4 := mul_le_mul_of_nonneg_left a3 (show 0 ≤ (1 + t) * γ ^ 2 by positivity)
    have a5 := mul_le_mul_of_nonneg_left a2 (show 0 ≤ 1 + t by positivity)
    have : (1 + t) * γ ^ 2 * ((1 + ε) * E W s T + C1) = θ * E W s T + (1 + t) * γ ^ 2 * C1 := by
      rw [hθd]; ring
    nlinarith
  -- the weighted energy inside
  have hcs : ∀ T, ∑ n ∈ range T, W ^ n * ((1 - g n ^ 2) * s n ^ 2) ≤ κ * E W s T + E W s n₀ := by
    intro T
    have a1 : ∑ n ∈ range T, W ^ n * ((1 - g n ^ 2) * s n ^ 2)
        ≤ ∑ n ∈ range T, (κ * (W ^ n * s n ^ 2) + if n < n₀ then W ^ n * s n ^ 2 else 0) := by
      refine sum_le_sum fun n _ => ?_
      have b0 : 0 ≤ W ^ n * s n ^ 2 := mul_nonneg (hp n) (sq_nonneg _)
      have b3 : W ^ n * ((1 - g n ^ 2) * s n ^ 2) = (1 - g n ^ 2) * (W ^ n * s n ^ 2) := by ring
      rw [b3]
      split_ifs with hn
      · have : (1 - g n ^ 2) * (W ^ n * s n ^ 2) ≤ 1 * (W ^ n * s n ^ 2) :=
          mul_le_mul_of_nonneg_right (by linarith [sq_nonneg (g n)]) b0
        nlinarith
      · have := mul_le_mul_of_nonneg_right (hn₀ n (by omega)) b0
        linarith
    refine le_trans a1 ?_
    rw [sum_add_distrib, ← mul_sum]
    have a2 : ∑ n ∈ range T, (if n < n₀ then W ^ n * s n ^ 2 else 0) ≤ E W s n₀ := by
      rw [← sum_filter]
      refine sum_le_sum_of_subset_of_nonneg ?_ fun n _ _ => mul_nonneg (hp n) (sq_nonneg _)
      intro n hn
      simp only [mem_filter, mem_range] at hn ⊢
      exact hn.2
    have : κ * ∑ n ∈ range T, W ^ n * s n ^ 2 = κ * E W s T := rfl
    linarith
  have hE0 : 0 ≤ E W s n₀ := E_nonneg hW0 _ _
  refine ⟨ε * (κ * ((1 + t) * γ ^ 2 * C1 / (1 - θ)) + E W s n₀) + C2, ?_, fun T => ?_⟩
  · have : 0 ≤ (1 + t) * γ ^ 2 * C1 / (1 - θ) := by
      apply div_nonneg <;> [positivity; linarith]
    positivity
  · have a1 : E W y T = E W x T + (∑ n ∈ range T, W ^ n * ((1 - g n ^ 2) * e n ^ 2)
        - ∑ n ∈ range T, W ^ n * ((1 - g n ^ 2) * s n ^ 2)) := by
      rw [E, E, ← sum_sub_distrib, ← sum_add_distrib]
      refine sum_congr rfl fun n _ => ?_
      have : x n = s n + g n * e n := by rw [hs n]; ring
      rw [hy n, this]; ring
    rw [a1]
    have a2 := h2 T
    have a3 := mul_le_mul_of_nonneg_left (hcs T) hε
    have a4 := mul_le_mul_of_nonneg_left (hEs T) (mul_nonneg hε hκ)
    have a5 : ε * κ * (((1 + 1 / t) * E W x T + (1 + t) * γ ^ 2 * C1) / (1 - θ))
        = ε * κ * (1 + 1 / t) / (1 - θ) * E W x T + ε * (κ * ((1 + t) * γ ^ 2 * C1 / (1 - θ))) := by
      have : 1 - θ ≠ 0 := by linarith
      field_simp
    nlinarith

/-- What a one-pole filter keeps: the value before. -/
def before (y : ℕ → ℝ) : ℕ → ℝ
  | 0 => 0
  | n + 1 => y n

lemma E_before (hW : 0 ≤ W) (y : ℕ → ℝ) (T : ℕ) : E W (before y) T ≤ W * E W y T := by
  cases T with
  | zero => simp [E]
  | succ S =>
    have : E W (before y) (S + 1) = W * E W y S := by
      rw [E, sum_range_succ', E, mul_sum]
      simp only [before]
      rw [show W ^ 0 * (0 : ℝ) ^ 2 = 0 by simp, add_zero]
      refine sum_congr rfl fun n _ => ?_
      rw [pow_succ]; ring
    rw [this]
    exact mul_le_mul_of_nonneg_left (E_mono hW y (by omega)) hW

/-- A one-pole filter with its pole below `P`. -/
lemma gain_pole (hW : 0 ≤ W) {P : ℝ} (hP : P < 1) (hWP : W * P < 1) {p x y : ℕ → ℝ}
    (hp : ∀ n, 0 ≤ p n ∧ p n ≤ P) (hy : ∀ n, y n = x n + p n * before y n) :
    Gain W (1 / (1 - P) / (1 - W * P)) y x := by
  have hP0 : 0 ≤ P := le_trans (hp 0).1 (hp 0).2
  refine ⟨0, le_refl _, fun T => ?_⟩
  have a1 : E W y T ≤ 1 / (1 - P) * E W x T + P * E W (before y) T := by
    rw [E, E, E, mul_sum, mul_sum, ← sum_add_distrib]
    refine sum_le_sum fun n _ => ?_
    have hW' := pow_nonneg hW n
    have key : (x n + p n * before y n) ^ 2 ≤ 1 / (1 - P) * x n ^ 2 + P * before y n ^ 2 := by
      have h1 : 0 < 1 - P := by linarith
      rcases hP0.eq_or_lt with h0 | h0
      · have : p n = 0 := le_antisymm (by linarith [(hp n).2]) (hp n).1
        rw [this, ← h0]; simp
      · have h2 := sq_add_le (x n) (p n * before y n) (t := (1 - P) / P) (by positivity)
        have h3 : 1 + 1 / ((1 - P) / P) = 1 / (1 - P) := by field_simp; ring
        have h4 : 1 + (1 - P) / P = 1 / P := by field_simp; ring
        rw [h3, h4] at h2
        have h5 : 1 / P * (p n * before y n) ^ 2 ≤ P * before y n ^ 2 := by
          have : p n ^ 2 ≤ P ^ 2 := by nlinarith [(hp n).1, (hp n).2]
          rw [one_div, inv_mul_le_iff₀ h0]
          nlinarith [sq_nonneg (before y n)]
        linarith
    rw [hy n]
    have := mul_le_mul_of_nonneg_left key hW'
    linarith
  have a2 := mul_le_mul_of_nonneg_left (E_before hW y T) hP0
  rw [add_zero, div_mul_eq_mul_div, le_div_iff₀ (by linarith)]
  nlinarith

/-- A one-pole low pass whose pole rises to `P`. -/
lemma gain_damp (hW : 0 ≤ W) {P δ : ℝ} (hP : P < 1) (hδ : 0 ≤ δ) (hWP : W * P < 1) {p x y : ℕ → ℝ}
    (hp : ∀ n, 0 ≤ p n ∧ p n ≤ P) (hmono : Monotone p) (hlim : ∃ n₀, ∀ n, n₀ ≤ n → P - δ ≤ p n)
    (hy : ∀ n, y n = x n + p n * before y n) :
    Gain W ((1 - P + δ) / (1 - W * P)) (fun n => (1 - p n) * y n) x := by
  have hP0 : 0 ≤ P := le_trans (hp 0).1 (hp 0).2
  obtain ⟨n₀, hn₀⟩ := hlim
  set o : ℕ → ℝ := fun n => (1 - p n) * y n with ho
  have hq : ∀ n, 0 < 1 - p n := fun n => by linarith [(hp n).2]
  have key : ∀ n, o n ^ 2 ≤ (1 - p n) * x n ^ 2 + P * before o n ^ 2 := by
    intro n
    have h0 := hq n
    have hb : ∃ z, o n = (1 - p n) * x n + p n * z ∧ z ^ 2 ≤ before o n ^ 2 := by
      cases n with
      | zero => exact ⟨0, by simp [ho, hy 0, before], by simp [before]⟩
      | succ m =>
        refine ⟨(1 - p (m + 1)) * y m, ?_, ?_⟩
        · simp only [ho]; rw [hy (m + 1)]; simp only [before]; ring
        · simp only [before, ho]
          have h1 : 1 - p (m + 1) ≤ 1 - p m := by linarith [hmono (show m ≤ m + 1 by omega)]
          have h2 : (1 - p (m + 1)) ^ 2 ≤ (1 - p m) ^ 2 := by nlinarith [hq m, hq (m + 1)]
          nlinarith [sq_nonneg (y m)]
    obtain ⟨z, hz, hzb⟩ := hb
    have hc : o n ^ 2 ≤ (1 - p n) * x n ^ 2 + p n * z ^ 2 := by
      rw [hz]
      nlinarith [mul_nonneg (mul_nonneg h0.le (hp n).1) (sq_nonneg (x n - z))]
    have h3 : p n * z ^ 2 ≤ P * before o n ^ 2 :=
      mul_le_mul (hp n).2 hzb (sq_nonneg _) hP0
    linarith
  refine ⟨E W x n₀ / (1 - W * P), div_nonneg (E_nonneg hW _ _) (by linarith), fun T => ?_⟩
  have a1 : E W o T ≤ (1 - P + δ) * E W x T + E W x n₀ + P * E W (before o) T := by
    have b1 : E W o T ≤ ∑ n ∈ range T, (((1 - P + δ) * (W ^ n * x n ^ 2)
        + if n < n₀ then W ^ n * x n ^ 2 else 0) + P * (W ^ n * before o n ^ 2)) := by
      rw [E]
      refine sum_le_sum fun n _ => ?_
      have hW' := pow_nonneg hW n
      have b0 : 0 ≤ W ^ n * x n ^ 2 := mul_nonneg hW' (sq_nonneg _)
      have c1 := mul_le_mul_of_nonneg_left (key n) hW'
      have c2 : (1 - p n) * (W ^ n * x n ^ 2) ≤ (1 - P + δ) * (W ^ n * x n ^ 2)
          + if n < n₀ then W ^ n * x n ^ 2 else 0 := by
        split_ifs with hn
        · have : (1 - p n) * (W ^ n * x n ^ 2) ≤ 1 * (W ^ n * x n ^ 2) :=
            mul_le_mul_of_nonneg_right (by linarith [(hp n).1]) b0
          have : 0 ≤ (1 - P + δ) * (W ^ n * x n ^ 2) := mul_nonneg (by linarith) b0
          linarith
        · have := mul_le_mul_of_nonneg_right (show 1 - p n ≤ 1 - P + δ by
            linarith [hn₀ n (by omega)]) b0
          linarith
      nlinarith
    refine le_trans b1 ?_
    rw [sum_add_distrib, sum_add_distrib, ← mul_sum, ← mul_sum]
    have a2 : ∑ n ∈ range T, (if n < n₀ then W ^ n * x n ^ 2 else 0) ≤ E W x n₀ := by
      rw [← sum_filter]
      refine sum_le_sum_of_subset_of_nonneg ?_
        fun n _ _ => mul_nonneg (pow_nonneg hW n) (sq_nonneg _)
      intro n hn
      simp only [mem_filter, mem_range] at hn ⊢
      exact hn.2
    have e1 : (1 - P + δ) * ∑ n ∈ range T, W ^ n * x n ^ 2 = (1 - P + δ) * E W x T := rfl
    have e2 : P * ∑ n ∈ range T, W ^ n * before o n ^ 2 = P * E W (before o) T := rfl
    linarith
  have a2 := mul_le_mul_of_nonneg_left (E_before hW o T) hP0
  rw [div_mul_eq_mul_div, ← add_div, le_div_iff₀ (by linarith)]
  nlinarith

/-- Two stages that feed each other: if what comes round is smaller, the energy inside is bounded by
the energy that enters. -/
lemma loop_energy (hW : 0 ≤ W) {K θ t : ℝ} (hK : 0 ≤ K) (ht : 0 < t)
    (hq : K * ((1 + t) * θ) < 1) {u₁ u₂ x₁ x₂ c₁ c₂ r₁ r₂ : ℕ → ℝ}
    (hx₁ : ∀ n, x₁ n = u₁ n + r₂ n) (hx₂ : ∀ n, x₂ n = u₂ n + r₁ n)
    (hr₁ : Gain W θ r₁ c₁) (hr₂ : Gain W θ r₂ c₂)
    (h₁ : Gain W K c₁ x₁) (h₂ : Gain W K c₂ x₂) :
    ∃ L C, 0 ≤ L ∧ 0 ≤ C ∧ ∀ T,
      E W c₁ T + E W c₂ T ≤ L * (E W u₁ T + E W u₂ T) + C := by
  obtain ⟨A, hA, h₁⟩ := h₁
  obtain ⟨B, hB, h₂⟩ := h₂
  obtain ⟨D, hD, hr₁⟩ := hr₁
  obtain ⟨F, hF, hr₂⟩ := hr₂
  set q := K * ((1 + t) * θ) with hqd
  refine ⟨K * (1 + 1 / t) / (1 - q), (K * ((1 + t) * (D + F)) + A + B) / (1 - q),
    div_nonneg (by positivity) (by linarith), div_nonneg (by positivity) (by linarith), fun T => ?_⟩
  have a₁ : E W x₁ T ≤ (1 + 1 / t) * E W u₁ T + (1 + t) * E W r₂ T := by
    rw [show x₁ = fun n => u₁ n + r₂ n from funext hx₁]
    exact E_add_le hW u₁ r₂ ht T
  have a₂ : E W x₂ T ≤ (1 + 1 / t) * E W u₂ T + (1 + t) * E W r₁ T := by
    rw [show x₂ = fun n => u₂ n + r₁ n from funext hx₂]
    exact E_add_le hW u₂ r₁ ht T
  have ht1 : (0 : ℝ) ≤ 1 + t := by linarith
  have b₁ := mul_le_mul_of_nonneg_left (hr₂ T) ht1
  have b₂ := mul_le_mul_of_nonneg_left (hr₁ T) ht1
  have c₁' := mul_le_mul_of_nonneg_left (le_trans a₁ (add_le_add_right b₁ _)) hK
  have c₂' := mul_le_mul_of_nonneg_left (le_trans a₂ (add_le_add_right b₂ _)) hK
  rw [div_mul_eq_mul_div, ← add_div, le_div_iff₀ (by linarith)]
  have := h₁ T
  have := h₂ T
  have e : q = K * ((1 + t) * θ) := hqd
  nlinarith

/-- The energy of `y` is bounded by `F`, up to a factor and a constant. -/
def Dom (W : ℝ) (F : ℕ → ℝ) (y : ℕ → ℝ) : Prop :=
  ∃ K C, 0 ≤ K ∧ 0 ≤ C ∧ ∀ T, E W y T ≤ K * F T + C

lemma Gain.dom {F : ℕ → ℝ} {K : ℝ} {y x : ℕ → ℝ} (hK : 0 ≤ K) (h : Gain W K y x)
    (hx : Dom W F x) : Dom W F y := by
  obtain ⟨C, hC, h⟩ := h
  obtain ⟨L, D, hL, hD, hx⟩ := hx
  refine ⟨K * L, K * D + C, by positivity, by positivity, fun T => ?_⟩
  have := mul_le_mul_of_nonneg_left (hx T) hK
  have := h T
  nlinarith

lemma Dom.add (hW : 0 ≤ W) {F : ℕ → ℝ} {y x : ℕ → ℝ} (hx : Dom W F x) (hy : Dom W F y) :
    Dom W F fun n => x n + y n := by
  obtain ⟨K, C, hK, hC, hx⟩ := hx
  obtain ⟨L, D, hL, hD, hy⟩ := hy
  refine ⟨2 * (K + L), 2 * (C + D), by positivity, by positivity, fun T => ?_⟩
  have := E_add_le hW x y one_pos T
  have := hx T
  have := hy T
  nlinarith

lemma Dom.mono {F : ℕ → ℝ} {y x : ℕ → ℝ} (hW : 0 ≤ W) (hx : Dom W F x) (h : ∀ n, |y n| ≤ |x n|) :
    Dom W F y := by
  obtain ⟨K, C, hK, hC, hx⟩ := hx
  refine ⟨K, C, hK, hC, fun T => le_trans ?_ (hx T)⟩
  rw [E, E]
  exact sum_le_sum fun n _ => mul_le_mul_of_nonneg_left (sq_le_sq.2 (h n)) (pow_nonneg hW n)

/-- A signal of finite energy fades. -/
lemma Dom.tendsto {F : ℕ → ℝ} {y : ℕ → ℝ} (h : Dom 1 F y) {M : ℝ} (hF : ∀ T, F T ≤ M) :
    Filter.Tendsto y Filter.atTop (nhds 0) := by
  obtain ⟨K, C, hK, hC, h⟩ := h
  have hs : Summable fun n => y n ^ 2 := by
    refine summable_of_sum_range_le (c := K * M + C) (fun n => sq_nonneg _) fun T => ?_
    have a := h T
    have b := mul_le_mul_of_nonneg_left (hF T) hK
    simp only [E, one_pow, one_mul] at a
    linarith
  have h0 := hs.tendsto_atTop_zero
  have h1 : Filter.Tendsto (fun n => Real.sqrt (y n ^ 2)) Filter.atTop (nhds (Real.sqrt 0)) :=
    (Real.continuous_sqrt.tendsto 0).comp h0
  simp only [Real.sqrt_sq_eq_abs, Real.sqrt_zero] at h1
  exact (tendsto_zero_iff_abs_tendsto_zero y).2 h1

/-- A signal whose weighted energy grows no faster than the weight is bounded. -/
lemma Dom.bounded (hW : 1 ≤ W) {F : ℕ → ℝ} {y : ℕ → ℝ} (h : Dom W F y) {M : ℝ} (hM : 0 ≤ M)
    (hF : ∀ T, F T ≤ M * W ^ T) : ∃ B, ∀ n, |y n| ≤ B := by
  obtain ⟨K, C, hK, hC, h⟩ := h
  have hW0 : 0 ≤ W := by linarith
  refine ⟨Real.sqrt (K * M * W + C), fun n => ?_⟩
  have hp : 1 ≤ W ^ n := one_le_pow₀ hW
  have a := h (n + 1)
  rw [E_succ] at a
  have b := E_nonneg hW0 y n
  have c := mul_le_mul_of_nonneg_left (hF (n + 1)) hK
  have d : y n ^ 2 ≤ K * M * W + C := by
    have e : W ^ n * y n ^ 2 ≤ W ^ n * (K * M * W + C) := by
      have : C ≤ W ^ n * C := by nlinarith
      rw [pow_succ] at c
      nlinarith
    exact le_of_mul_le_mul_left e (by linarith)
  exact Real.abs_le_sqrt d

end Verif.Reverb
