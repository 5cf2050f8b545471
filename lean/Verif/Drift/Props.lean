import Verif.Drift.Model
import Mathlib.Tactic.Linarith
import Mathlib.Tactic.Ring
import Mathlib.Tactic.FieldSimp
import Mathlib.Tactic.NormNum
import Mathlib.Tactic.Positivity
import Mathlib.Algebra.Order.Field.Power
import Mathlib.Algebra.Order.Ring.Pow

/-!
# Rounding and long notes

C127: the rounding of `float` does not detune a note or let it drift away, however long it
lasts: the error of the place in the sample is a fixed small part of the way played.
C128: the same for the phases of LFOs and oscillators, whose frequency is off by at most the
sample rate times 2^-24; an LFO slower than the sample rate times 2^-25 stops.
-/

namespace Verif.Drift

open Verif.Float32

/-- Half the distance of the floats just above 1. -/
def u : ℚ := 1 / 2 ^ 24

lemma u_pos : 0 < u := by norm_num [u]

/-! ## One rounded sum -/

lemma isFloat_of_mult {n : ℤ} {e : ℤ} (he : -149 ≤ e) (hn : |n| ≤ 2 ^ 24) :
    IsFloat (n * (2 : ℚ) ^ e) := by
  rcases lt_or_eq_of_le hn with h | h
  · exact ⟨n, e, h, he, rfl⟩
  · refine ⟨n / 2 ^ 24, e + 24, ?_, by omega, ?_⟩
    · rcases abs_cases n with ⟨h1, _⟩ | ⟨h1, _⟩
      · have : n = 2 ^ 24 := by omega
        rw [this]; norm_num
      · have : n = -2 ^ 24 := by omega
        rw [this]; norm_num
    · rw [zpow_add₀ (by norm_num)]
      rcases abs_cases n with ⟨h1, _⟩ | ⟨h1, _⟩
      · have : n = 2 ^ 24 := by omega
        rw [this]; norm_num; ring
      · have : n = -2 ^ 24 := by omega
        rw [this]; norm_num; ring

lemma fl_sum {a b : ℚ} (ha : IsFloat a) (hb : IsFloat b) (h0 : 0 ≤ a) (h1 : 0 ≤ b) :
    |fl (a + b) - (a + b)| ≤ u * (a + b) := by
  rcases eq_or_lt_of_le (add_nonneg h0 h1) with h | h
  · rw [← h, fl_zero]; simp
  by_cases hl : -126 ≤ Int.log 2 (a + b)
  · refine (fl_error _).trans ?_
    have hb : binExp (a + b) = Int.log 2 (a + b) := by
      unfold binExp; rw [abs_of_pos h, max_eq_left hl]
    unfold ulp
    rw [hb, zpow_sub₀ (by norm_num)]
    have := log_le h
    unfold u
    norm_num
    norm_num at this
    linarith
  · push Not at hl
    have hlt : a + b < (2 : ℚ) ^ (-126 : ℤ) :=
      lt_of_lt_of_le lt_log (zpow_mono (by omega))
    obtain ⟨m, hm⟩ := ha.multiple (u := -149) (Or.inl le_rfl)
    obtain ⟨n, hn⟩ := hb.multiple (u := -149) (Or.inl le_rfl)
    have hs : a + b = ((m + n : ℤ) : ℚ) * (2 : ℚ) ^ (-149 : ℤ) := by
      rw [hm, hn]; push_cast; ring
    have hp : (0 : ℚ) < 2 ^ (-149 : ℤ) := by positivity
    have hk : |m + n| < 2 ^ 24 := by
      have e : (2 : ℚ) ^ (-126 : ℤ) = 2 ^ 23 * 2 ^ (-149 : ℤ) := by
        rw [← zpow_natCast, ← zpow_add₀ (by norm_num)]; norm_num
      have h2 : ((m + n : ℤ) : ℚ) < 2 ^ 23 := by
        rw [hs, e] at hlt; exact lt_of_mul_lt_mul_right hlt hp.le
      have h3 : (0 : ℚ) < ((m + n : ℤ) : ℚ) := by
        rw [hs] at h; exact (mul_pos_iff_of_pos_right hp).mp h
      have h2' : m + n < 2 ^ 23 := by exact_mod_cast h2
      have h3' : 0 < m + n := by exact_mod_cast h3
      rw [abs_of_pos h3']; omega
    rw [fl_of_isFloat ⟨m + n, -149, hk, le_rfl, hs⟩]
    simp only [sub_self, abs_zero]
    exact mul_nonneg u_pos.le h.le

/-! ## Running sums -/

/-- `p` is a float that stands for the exact `q` after at most `n` roundings. -/
def Near (n : ℕ) (q p : ℚ) : Prop :=
  IsFloat p ∧ 0 ≤ p ∧ (1 - u) ^ n * q ≤ p ∧ p ≤ (1 + u) ^ n * q

lemma Near.nonneg {n : ℕ} {q p : ℚ} (h : Near n q p) : 0 ≤ q := by
  have h1 : 0 ≤ (1 + u) ^ n * q := h.2.1.trans h.2.2.2
  have h2 : 0 < (1 + u) ^ n := pow_pos (by linarith [u_pos]) n
  exact nonneg_of_mul_nonneg_right h1 h2

lemma Near.le {n m : ℕ} (hnm : n ≤ m) {q p : ℚ} (h : Near n q p) : Near m q p := by
  have hq := h.nonneg
  have hu := u_pos
  have hu1 : u ≤ 1 := by norm_num [u]
  refine ⟨h.1, h.2.1, le_trans ?_ h.2.2.1, h.2.2.2.trans ?_⟩
  · exact mul_le_mul_of_nonneg_right
      (pow_le_pow_of_le_one (by linarith) (by linarith) hnm) hq
  · exact mul_le_mul_of_nonneg_right (pow_le_pow_right₀ (by linarith) hnm) hq

lemma Near.self {p : ℚ} (h : IsFloat p) (h0 : 0 ≤ p) : Near 0 p p :=
  ⟨h, h0, by simp, by simp⟩

lemma Near.add {n m : ℕ} {q p r s : ℚ} (h : Near n q p) (k : Near m r s) :
    Near (max n m + 1) (q + r) (fl (p + s)) := by
  have h' := h.le (le_max_left n m)
  have k' := k.le (le_max_right n m)
  have e := fl_sum h.1 k.1 h.2.1 k.2.1
  rw [abs_le] at e
  have hu := u_pos
  have hu1 : u ≤ 1 := by norm_num [u]
  refine ⟨fl_isFloat _, fl_nonneg (add_nonneg h.2.1 k.2.1), ?_, ?_⟩
  · rw [pow_succ]
    have : (1 - u) ^ max n m * (q + r) ≤ p + s := by
      rw [mul_add]; exact add_le_add h'.2.2.1 k'.2.2.1
    calc (1 - u) ^ max n m * (1 - u) * (q + r)
        = (1 - u) * ((1 - u) ^ max n m * (q + r)) := by ring
      _ ≤ (1 - u) * (p + s) := mul_le_mul_of_nonneg_left this (by linarith)
      _ ≤ fl (p + s) := by linarith [e.1]
  · rw [pow_succ]
    have : p + s ≤ (1 + u) ^ max n m * (q + r) := by
      rw [mul_add]; exact add_le_add h'.2.2.2 k'.2.2.2
    calc fl (p + s) ≤ (1 + u) * (p + s) := by linarith [e.2]
      _ ≤ (1 + u) * ((1 + u) ^ max n m * (q + r)) :=
          mul_le_mul_of_nonneg_left this (by linarith)
      _ = (1 + u) ^ max n m * (1 + u) * (q + r) := by ring

/-- A list of speeds: floats that are not negative. -/
def Speeds (xs : List ℚ) : Prop := ∀ x ∈ xs, IsFloat x ∧ 0 ≤ x

lemma scalar_near (xs : List ℚ) : ∀ (o q : ℚ) (k : ℕ), Near k q o → Speeds xs →
    (scalar o xs).length = xs.length ∧
    ∀ i (h : i < (scalar o xs).length),
      Near (k + i + 1) (q + (xs.take (i + 1)).sum) ((scalar o xs)[i]) := by
  induction xs with
  | nil => intro o q k _ _; exact ⟨rfl, fun i h => absurd h (by simp [scalar])⟩
  | cons x xs ih =>
    intro o q k ho hs
    have hx := hs x List.mem_cons_self
    have h1 := ho.add (Near.self hx.1 hx.2)
    rw [Nat.max_zero] at h1
    obtain ⟨hl, hi⟩ := ih _ _ _ h1 (fun y hy => hs y (List.mem_cons_of_mem _ hy))
    refine ⟨by simp [scalar, hl], fun i h => ?_⟩
    cases i with
    | zero => simpa [scalar] using h1
    | succ i =>
      have := hi i (by simpa [scalar] using h)
      simp only [scalar, List.getElem_cons_succ, List.take_succ_cons, List.sum_cons]
      have e : k + (i + 1) + 1 = k + 1 + i + 1 := by omega
      have e2 : q + (x + (xs.take (i + 1)).sum) = q + x + (xs.take (i + 1)).sum := by ring
      rw [e, e2]; exact this

lemma fl_add_zero {x : ℚ} (h : IsFloat x) : fl (x + 0) = x := by rw [add_zero, fl_of_isFloat h]

lemma lanes_near {a b c d : ℚ} (hs : Speeds [a, b, c, d]) :
    Near 0 a (lanes a b c d).1 ∧ Near 1 (a + b) (lanes a b c d).2.1
      ∧ Near 2 (a + b + c) (lanes a b c d).2.2.1
      ∧ Near 2 (a + b + c + d) (lanes a b c d).2.2.2 := by
  have ha := hs a (by simp)
  have hb := hs b (by simp)
  have hc := hs c (by simp)
  have hd := hs d (by simp)
  have na := Near.self ha.1 ha.2
  have nb := Near.self hb.1 hb.2
  have nc := Near.self hc.1 hc.2
  have nd := Near.self hd.1 hd.2
  unfold lanes
  rw [fl_add_zero ha.1]
  simp only
  rw [fl_add_zero ha.1, fl_add_zero (fl_isFloat _)]
  refine ⟨na, ?_, ?_, ?_⟩
  · have := nb.add na
    rwa [add_comm a b]
  · have := (nc.add nb).add na
    have e : a + b + c = c + b + a := by ring
    rw [e]; exact this
  · have := (nd.add nc).add (nb.add na)
    have e : a + b + c + d = d + c + (b + a) := by ring
    rw [e]; exact this

lemma sums_near (pre vecs : ℕ) (o : ℚ) (xs : List ℚ) : ∀ (q : ℚ) (k : ℕ),
    Near k q o → Speeds xs →
    (sums pre vecs o xs).length = xs.length ∧
    ∀ i (h : i < (sums pre vecs o xs).length),
      Near (k + i + 1) (q + (xs.take (i + 1)).sum) ((sums pre vecs o xs)[i]) := by
  induction pre, vecs, o, xs using sums.induct with
  | case1 pre vecs o x xs ih =>
    intro q k ho hs
    have hx := hs x List.mem_cons_self
    have h1 := ho.add (Near.self hx.1 hx.2)
    rw [Nat.max_zero] at h1
    obtain ⟨hl, hi⟩ := ih _ _ h1 (fun y hy => hs y (List.mem_cons_of_mem _ hy))
    refine ⟨by simp [sums, hl], fun i h => ?_⟩
    cases i with
    | zero => simpa [sums] using h1
    | succ i =>
      have := hi i (by simpa [sums] using h)
      simp only [sums, List.getElem_cons_succ, List.take_succ_cons, List.sum_cons]
      have e : k + (i + 1) + 1 = k + 1 + i + 1 := by omega
      have e2 : q + (x + (xs.take (i + 1)).sum) = q + x + (xs.take (i + 1)).sum := by ring
      rw [e, e2]; exact this
  | case2 vecs o a b c d xs t ih =>
    intro q k ho hs
    obtain ⟨h0, h1, h2, h3⟩ := lanes_near (a := a) (b := b) (c := c) (d := d)
      (fun y hy => hs y (by
        simp only [List.mem_cons, List.not_mem_nil, or_false] at hy ⊢
        tauto))
    have g0 := (ho.add h0).le (show max k 0 + 1 ≤ k + 1 by omega)
    have g1 := (ho.add h1).le (show max k 1 + 1 ≤ k + 2 by omega)
    have g2 := (ho.add h2).le (show max k 2 + 1 ≤ k + 3 by omega)
    have g3 := (ho.add h3).le (show max k 2 + 1 ≤ k + 4 by omega)
    obtain ⟨hl, hi⟩ := ih _ _ g3 (fun y hy => hs y (by simp [hy]))
    refine ⟨by simp only [sums, List.length_cons]; rw [hl], fun i h => ?_⟩
    match i with
    | 0 => simpa [sums] using g0
    | 1 => simpa [sums, add_assoc] using g1
    | 2 => simpa [sums, add_assoc] using g2
    | 3 => simpa [sums, add_assoc] using g3
    | i + 4 =>
      have := hi i (by simpa [sums] using h)
      simp only [sums, List.getElem_cons_succ, List.take_succ_cons, List.sum_cons]
      have e : k + (i + 4) + 1 = k + 4 + i + 1 := by omega
      have e2 : q + (a + (b + (c + (d + (xs.take (i + 1)).sum))))
          = q + (a + b + c + d) + (xs.take (i + 1)).sum := by ring
      rw [e, e2]; exact this
  | case3 pre vecs o xs h1 h2 =>
    intro q k ho hs
    have e : sums pre vecs o xs = scalar o xs := by
      match pre, vecs, xs with
      | 0, 0, [] => rfl
      | 0, 0, _ :: _ => rfl
      | p + 1, _, [] => rfl
      | p + 1, v, x :: xs => exact absurd rfl (fun h => h1 p x xs h rfl)
      | 0, v + 1, [] => rfl
      | 0, v + 1, [_] => rfl
      | 0, v + 1, [_, _] => rfl
      | 0, v + 1, [_, _, _] => rfl
      | 0, v + 1, a :: b :: c :: d :: xs => exact absurd rfl (fun h => h2 v a b c d xs h rfl rfl)
    rw [e]
    exact scalar_near xs o q k ho hs

/-! ## Powers -/

lemma grow {n : ℕ} (h : n ≤ 2 ^ 20) : (1 + u) ^ n ≤ 1 + 2 * n * u := by
  have hu := u_pos
  have hn : (n : ℚ) * u ≤ 1 / 16 := by
    have : (n : ℚ) ≤ 1048576 := by exact_mod_cast h
    unfold u; linarith
  have hb : 1 - n * u ≤ (1 - u) ^ n := by
    have := one_add_mul_le_pow (a := -u) (by norm_num [u]) n
    have e : (1 : ℚ) + n * -u = 1 - n * u := by ring
    rw [e] at this
    simpa [sub_eq_add_neg] using this
  have hp : (1 + u) ^ n * (1 - u) ^ n ≤ 1 := by
    rw [← mul_pow]
    exact pow_le_one₀ (by norm_num [u]) (by nlinarith)
  have hpos : 0 < (1 + u) ^ n := pow_pos (by linarith) n
  have h1 : (1 + u) ^ n * (1 - n * u) ≤ 1 :=
    (mul_le_mul_of_nonneg_left hb hpos.le).trans hp
  have h2 : (1 : ℚ) ≤ (1 + 2 * n * u) * (1 - n * u) := by
    have : 0 ≤ (n : ℚ) * u := by positivity
    nlinarith
  by_contra hc
  push Not at hc
  have : (1 + 2 * n * u) * (1 - n * u) < (1 + u) ^ n * (1 - n * u) :=
    mul_lt_mul_of_pos_right hc (by linarith)
  linarith

lemma shrink (n : ℕ) : 1 - 2 * n * u ≤ (1 - u) ^ n := by
  have hu := u_pos
  have := one_add_mul_le_pow (a := -u) (by norm_num [u]) n
  have e : (1 : ℚ) + n * -u = 1 - n * u := by ring
  rw [e] at this
  have h0 : 0 ≤ (n : ℚ) * u := by positivity
  have : 1 - n * u ≤ (1 - u) ^ n := by simpa [sub_eq_add_neg] using this
  linarith

lemma Near.error {n : ℕ} (h : n ≤ 2 ^ 20) {q p : ℚ} (k : Near n q p) :
    |p - q| ≤ 2 * n * u * q := by
  have hq := k.nonneg
  have h1 := mul_le_mul_of_nonneg_right (grow h) hq
  have h2 := mul_le_mul_of_nonneg_right (shrink n) hq
  rw [abs_le]
  constructor
  · linarith [k.2.2.1]
  · linarith [k.2.2.2]

/-! ## The cast is exact -/

lemma isFloat_nat_le {n : ℤ} (h0 : 0 ≤ n) (h : n ≤ 2 ^ 24) : IsFloat (n : ℚ) := by
  have := isFloat_of_mult (n := n) (e := 0) (by norm_num) (by rw [abs_of_nonneg h0]; exact h)
  simpa using this

lemma isFloat_fract {p : ℚ} (h : IsFloat p) (h0 : 0 ≤ p) : IsFloat (p - ⌊p⌋) := by
  obtain ⟨m, e, hm, he, hp⟩ := h
  rcases le_or_gt 0 e with h1 | h1
  · obtain ⟨k, hk⟩ := zpow_mult (a := 0) (b := e) h1
    have : p = ((m * k : ℤ) : ℚ) := by rw [hp, hk]; push_cast; simp
    rw [this, Int.floor_intCast, sub_self]
    exact ⟨0, 0, by norm_num, by norm_num, by simp⟩
  · obtain ⟨k, hk⟩ := zpow_mult (a := e) (b := 0) h1.le
    have hpos : (0 : ℚ) < 2 ^ e := by positivity
    have h1' : (1 : ℚ) = k * 2 ^ e := by simpa using hk
    have hf : (⌊p⌋ : ℚ) = ((⌊p⌋ * k : ℤ) : ℚ) * 2 ^ e := by
      push_cast; rw [mul_assoc, ← h1', mul_one]
    have hsub : p - ⌊p⌋ = ((m - ⌊p⌋ * k : ℤ) : ℚ) * 2 ^ e := by
      rw [hf]
      have : p - ((⌊p⌋ * k : ℤ) : ℚ) * 2 ^ e = m * 2 ^ e - ((⌊p⌋ * k : ℤ) : ℚ) * 2 ^ e := by
        rw [← hp]
      rw [this]
      push_cast; ring
    refine ⟨m - ⌊p⌋ * k, e, ?_, he, hsub⟩
    have hk0 : 0 < k := by
      have : (0 : ℚ) < k := by
        by_contra hc
        push Not at hc
        have := mul_nonpos_of_nonpos_of_nonneg hc hpos.le
        linarith
      exact_mod_cast this
    have hfl : 0 ≤ ⌊p⌋ := Int.floor_nonneg.mpr h0
    have h2 : 0 ≤ m - ⌊p⌋ * k := by
      have : (0 : ℚ) ≤ ((m - ⌊p⌋ * k : ℤ) : ℚ) := by
        by_contra hc
        push Not at hc
        have := mul_neg_of_neg_of_pos hc hpos
        rw [← hsub] at this
        linarith [Int.floor_le p]
      exact_mod_cast this
    rw [abs_of_nonneg h2]
    have : m - ⌊p⌋ * k ≤ m := by nlinarith
    have := le_abs_self m
    omega

lemma split_exact {p : ℚ} (h : IsFloat p) (h0 : 0 ≤ p) (h1 : p ≤ 2 ^ 24) :
    fl (p - fl (⌊p⌋ : ℤ)) = p - ⌊p⌋ := by
  have hf : IsFloat ((⌊p⌋ : ℤ) : ℚ) := by
    refine isFloat_nat_le (Int.floor_nonneg.mpr h0) ?_
    have : (⌊p⌋ : ℚ) ≤ 2 ^ 24 := (Int.floor_le p).trans h1
    exact_mod_cast this
  rw [fl_of_isFloat hf, fl_of_isFloat (isFloat_fract h h0)]

lemma cast_exact {p : ℚ} (h : IsFloat p) (h0 : 0 ≤ p) (h1 : p ≤ 2 ^ 24) :
    interpolationCast p = (⌊p⌋, p - ⌊p⌋) := by
  unfold interpolationCast
  simp only [min_eq_right h1]
  rw [split_exact h h0 h1]

/-! ## Blocks -/

/-- A fraction of a frame, as a voice keeps it. -/
def Place.Ok (p : Place) : Prop := IsFloat p.off ∧ 0 ≤ p.off ∧ p.off < 1

/-- A block as the engine makes them: at most `2^20 - 1` frames, at most 2^22 frames of the
sample passed (so that the cast does not limit; `maxJump`, `SIMDHelpers.h:644`). -/
def Fits (xs : List ℚ) : Prop := Speeds xs ∧ xs.length < 2 ^ 20 ∧ xs.sum ≤ 2 ^ 22

lemma sum_take_le {xs : List ℚ} (h : Speeds xs) (n : ℕ) : (xs.take n).sum ≤ xs.sum := by
  have e : xs.sum = (xs.take n).sum + (xs.drop n).sum := by
    rw [← List.sum_append, List.take_append_drop]
  have : 0 ≤ (xs.drop n).sum := List.sum_nonneg (fun x hx => (h x (List.mem_of_mem_drop hx)).2)
  linarith

lemma sum_take_nonneg {xs : List ℚ} (h : Speeds xs) (n : ℕ) : 0 ≤ (xs.take n).sum :=
  List.sum_nonneg (fun x hx => (h x (List.mem_of_mem_take hx)).2)

lemma heard_near {p : Place} (hp : p.Ok) (a : Addr) {xs : List ℚ} (hx : Fits xs) :
    (heard p a xs).length = xs.length ∧
    ∀ i (h : i < (heard p a xs).length),
      ((heard p a xs)[i]).Ok ∧
      |((heard p a xs)[i]).at - (p.at + (xs.take (i + 1)).sum)|
        ≤ 2 * xs.length * u * (1 + (xs.take (i + 1)).sum) := by
  obtain ⟨hs, hn, hsum⟩ := hx
  cases xs with
  | nil => exact ⟨rfl, fun i h => absurd h (by simp [heard])⟩
  | cons x xs =>
    have hx := hs x List.mem_cons_self
    have h1 : Near 1 (x + p.off) (fl (x + p.off)) :=
      (Near.self hx.1 hx.2).add (Near.self hp.1 hp.2.1)
    obtain ⟨hl, hi⟩ := sums_near a.pre a.vecs (fl (x + p.off)) xs _ _ h1
      (fun y hy => hs y (List.mem_cons_of_mem _ hy))
    have key : ∀ i (h : i < (cumsum a.pre a.vecs (fl (x + p.off) :: xs)).length),
        Near (i + 1) (p.off + ((x :: xs).take (i + 1)).sum)
          ((cumsum a.pre a.vecs (fl (x + p.off) :: xs))[i]) := by
      intro i h
      cases i with
      | zero => simpa [cumsum, add_comm] using h1
      | succ i =>
        have := hi i (by simpa [cumsum] using h)
        simp only [cumsum, List.getElem_cons_succ, List.take_succ_cons, List.sum_cons] at this ⊢
        have e : 1 + i + 1 = i + 1 + 1 := by omega
        have e2 : x + p.off + (xs.take (i + 1)).sum = p.off + (x + (xs.take (i + 1)).sum) := by
          ring
        rw [e, e2] at this; exact this
    refine ⟨by simp [heard, cumsum, hl], fun i h => ?_⟩
    have h' : i < (cumsum a.pre a.vecs (fl (x + p.off) :: xs)).length := by
      simpa [heard] using h
    have hile : i + 1 ≤ (x :: xs).length := by
      simp only [cumsum, List.length_cons, hl] at h' ⊢; omega
    have k := key i h'
    set q := (cumsum a.pre a.vecs (fl (x + p.off) :: xs))[i] with hq
    set S := ((x :: xs).take (i + 1)).sum with hS
    have hS0 : 0 ≤ S := sum_take_nonneg hs _
    have hSle : S ≤ 2 ^ 22 := (sum_take_le hs _).trans hsum
    have herr := k.error (by omega)
    have hcast : ((i + 1 : ℕ) : ℚ) ≤ ((x :: xs).length : ℕ) := by exact_mod_cast hile
    have hlen : (((x :: xs).length : ℕ) : ℚ) ≤ 1048576 := by exact_mod_cast hn.le
    have hu := u_pos
    have hE : 2 * ((i + 1 : ℕ) : ℚ) * u * (p.off + S)
        ≤ 2 * ((x :: xs).length : ℕ) * u * (1 + S) := by
      apply mul_le_mul
      · exact mul_le_mul_of_nonneg_right (by linarith) hu.le
      · linarith [hp.2.2]
      · linarith [hp.2.1]
      · positivity
    have hbig : q ≤ 2 ^ 24 := by
      have h3 : 2 * (((x :: xs).length : ℕ) : ℚ) * u * (1 + S) ≤ 1 / 8 * (1 + 2 ^ 22) := by
        apply mul_le_mul
        · unfold u; linarith
        · linarith
        · linarith
        · norm_num
      have h4 := (abs_le.mp herr).2
      have : q ≤ p.off + S + 1 / 8 * (1 + 2 ^ 22) := by linarith
      have h5 := hp.2.2
      norm_num at this hSle ⊢
      linarith
    have hc := cast_exact k.1 k.2.1 hbig
    have hget : (heard p a (x :: xs))[i] = ⟨p.pos + ⌊q⌋, q - ⌊q⌋⟩ := by
      simp only [heard, List.getElem_map]
      rw [← hq, hc]
    rw [hget]
    refine ⟨⟨isFloat_fract k.1 k.2.1, by simpa using Int.floor_le q, by
      have := Int.lt_floor_add_one q; simp only; linarith⟩, ?_⟩
    have hat : (⟨p.pos + ⌊q⌋, q - ⌊q⌋⟩ : Place).at - (p.at + S) = q - (p.off + S) := by
      simp only [Place.at]; push_cast; ring
    rw [hat]
    exact herr.trans hE

lemma next_near {p : Place} (hp : p.Ok) (a : Addr) {xs : List ℚ} (hx : Fits xs) :
    (next p a xs).Ok ∧
      |(next p a xs).at - (p.at + xs.sum)| ≤ 2 * xs.length * u * (1 + xs.sum) := by
  obtain ⟨hl, hi⟩ := heard_near hp a hx
  unfold next
  rcases Nat.eq_zero_or_pos xs.length with h | h
  · have hxs : xs = [] := List.length_eq_zero_iff.mp h
    subst hxs
    simp only [heard, List.getLastD_nil, List.sum_nil, List.length_nil]
    exact ⟨hp, by simp⟩
  · have hlast : (heard p a xs).getLastD p = (heard p a xs)[xs.length - 1]'(by omega) := by
      have hne : heard p a xs ≠ [] := by
        intro hc; rw [hc] at hl; simp at hl; omega
      rw [List.getLastD_eq_getLast?, List.getLast?_eq_getLast_of_ne_nil hne, Option.getD_some,
        List.getLast_eq_getElem]
      congr 1
      omega
    rw [hlast]
    have := hi (xs.length - 1) (by omega)
    have e : xs.length - 1 + 1 = xs.length := by omega
    rw [e, List.take_length] at this
    exact this

/-- All the speeds of a note, frame by frame. -/
def speeds (bs : List (Addr × List ℚ)) : List ℚ := (bs.map Prod.snd).flatten

/-- C127: at every frame of a note the place heard differs from the exact sum of the speeds by at
most `N · 2^-23` of the way played so far plus one frame for every block, `N` being the longest
block - whatever the speeds, the number of blocks and their addresses in memory. -/
theorem place_drift (N : ℕ) (p : Place) (hp : p.Ok) (bs : List (Addr × List ℚ))
    (hb : ∀ b ∈ bs, Fits b.2 ∧ b.2.length ≤ N) (i : ℕ) (h : i < (session p bs).length) :
    |((session p bs)[i]).at - (p.at + ((speeds bs).take (i + 1)).sum)|
      ≤ N * (1 / 2 ^ 23) * (((speeds bs).take (i + 1)).sum + bs.length) := by
  induction bs generalizing p i with
  | nil => exact absurd h (by simp [session])
  | cons b bs ih =>
    obtain ⟨hf, hN⟩ := hb b List.mem_cons_self
    obtain ⟨hl, hi⟩ := heard_near hp b.1 hf
    have hN' : ((b.2.length : ℕ) : ℚ) ≤ N := by exact_mod_cast hN
    have hu2 : (2 : ℚ) * u = 1 / 2 ^ 23 := by norm_num [u]
    have hS : speeds (b :: bs) = b.2 ++ speeds bs := by simp [speeds]
    have hlen0 : (0 : ℚ) ≤ bs.length := Nat.cast_nonneg _
    have hNp : (0 : ℚ) ≤ N := Nat.cast_nonneg _
    rcases lt_or_ge i b.2.length with hlt | hge
    · have e1 : (session p (b :: bs))[i] = (heard p b.1 b.2)[i]'(by omega) := by
        simp only [session]
        exact List.getElem_append_left (by omega)
      have e2 : ((speeds (b :: bs)).take (i + 1)) = b.2.take (i + 1) := by
        rw [hS, List.take_append_of_le_length (by omega)]
      rw [e1, e2]
      refine (hi i (by omega)).2.trans ?_
      have h0 := sum_take_nonneg hf.1 (i + 1)
      rw [List.length_cons]
      push_cast
      calc 2 * (b.2.length : ℚ) * u * (1 + (b.2.take (i + 1)).sum)
          = b.2.length * (1 / 2 ^ 23) * (1 + (b.2.take (i + 1)).sum) := by rw [← hu2]; ring
        _ ≤ N * (1 / 2 ^ 23) * ((b.2.take (i + 1)).sum + (bs.length + 1)) := by
          apply mul_le_mul
          · exact mul_le_mul_of_nonneg_right hN' (by norm_num)
          · linarith
          · linarith
          · positivity
    · obtain ⟨hok, hnext⟩ := next_near hp b.1 hf
      have hlen : i - b.2.length < (session (next p b.1 b.2) bs).length := by
        simp only [session, List.length_append, hl] at h; omega
      have e1 : (session p (b :: bs))[i]
          = (session (next p b.1 b.2) bs)[i - b.2.length]'hlen := by
        simp only [session]
        rw [List.getElem_append_right (by omega)]
        congr 1; omega
      have e2 : ((speeds (b :: bs)).take (i + 1)).sum
          = b.2.sum + ((speeds bs).take (i - b.2.length + 1)).sum := by
        rw [hS, List.take_append, List.sum_append, List.take_of_length_le (by omega)]
        congr 3; omega
      have h3 := ih (next p b.1 b.2) hok (fun c hc => hb c (List.mem_cons_of_mem _ hc))
        (i - b.2.length) hlen
      rw [e1, e2, List.length_cons]
      set T := ((speeds bs).take (i - b.2.length + 1)).sum
      set X := ((session (next p b.1 b.2) bs)[i - b.2.length]'hlen).at
      have hb0 : 0 ≤ b.2.sum := List.sum_nonneg (fun x hx => (hf.1 x hx).2)
      have h4 : 2 * (b.2.length : ℚ) * u * (1 + b.2.sum)
          ≤ N * (1 / 2 ^ 23) * (1 + b.2.sum) := by
        calc 2 * (b.2.length : ℚ) * u * (1 + b.2.sum)
            = b.2.length * (1 / 2 ^ 23) * (1 + b.2.sum) := by rw [← hu2]; ring
          _ ≤ _ := mul_le_mul_of_nonneg_right
            (mul_le_mul_of_nonneg_right hN' (by norm_num)) (by linarith)
      have h5 : X - (p.at + (b.2.sum + T))
          = (X - ((next p b.1 b.2).at + T)) + ((next p b.1 b.2).at - (p.at + b.2.sum)) := by
        ring
      rw [h5]
      refine (abs_add_le _ _).trans ((add_le_add h3 (hnext.trans h4)).trans ?_)
      push_cast
      apply le_of_eq
      ring

/-- C127, in proportion: when every block passes at least one frame of the sample, the place at
the end of every block is off by at most `N · 2^-22` of the way played.  For blocks of up to
1024 frames that is one part in 4096, less than half a cent, after any time. -/
theorem pitch_drift (N : ℕ) (p : Place) (hp : p.Ok) (bs : List (Addr × List ℚ))
    (hb : ∀ b ∈ bs, Fits b.2 ∧ b.2.length ≤ N ∧ 1 ≤ b.2.sum)
    (h : 0 < (session p bs).length) :
    |((session p bs)[(session p bs).length - 1]).at - (p.at + (speeds bs).sum)|
      ≤ N * (1 / 2 ^ 22) * (speeds bs).sum := by
  have hd := place_drift N p hp bs (fun b hm => ⟨(hb b hm).1, (hb b hm).2.1⟩)
    ((session p bs).length - 1) (by omega)
  have hlen : ∀ (bs : List (Addr × List ℚ)) (p : Place), p.Ok →
      (∀ b ∈ bs, Fits b.2 ∧ b.2.length ≤ N ∧ 1 ≤ b.2.sum) →
      (session p bs).length = (speeds bs).length ∧ (bs.length : ℚ) ≤ (speeds bs).sum := by
    intro bs
    induction bs with
    | nil => intro p _ _; simp [session, speeds]
    | cons b bs ih =>
      intro p hp hb
      have h1 := hb b List.mem_cons_self
      obtain ⟨h2, h3⟩ := ih (next p b.1 b.2) (next_near hp b.1 h1.1).1
        (fun c hc => hb c (List.mem_cons_of_mem _ hc))
      have hS : speeds (b :: bs) = b.2 ++ speeds bs := by simp [speeds]
      rw [hS, List.sum_append, List.length_append, List.length_cons]
      refine ⟨by simp only [session, List.length_append, h2, (heard_near hp b.1 h1.1).1], ?_⟩
      push_cast; linarith [h1.2.2]
  obtain ⟨h1, h2⟩ := hlen bs p hp hb
  have e : (session p bs).length - 1 + 1 = (speeds bs).length := by omega
  rw [e, List.take_length] at hd
  refine hd.trans ?_
  have hN : (0 : ℚ) ≤ N := Nat.cast_nonneg _
  calc (N : ℚ) * (1 / 2 ^ 23) * ((speeds bs).sum + bs.length)
      ≤ N * (1 / 2 ^ 23) * ((speeds bs).sum + (speeds bs).sum) := by
        apply mul_le_mul_of_nonneg_left (by linarith) (by positivity)
    _ = N * (1 / 2 ^ 22) * (speeds bs).sum := by ring

/-- Non-vacuity: two blocks, one through a vector, at the speed of a fifth up (as a float). -/
example : (session ⟨0, 0⟩ [(⟨0, 1⟩, [0, 3 / 2, 3 / 2, 3 / 2, 3 / 2]),
    (⟨1, 0⟩, [12582913 / 8388608, 12582913 / 8388608])]).map Place.at
    = [0, 3 / 2, 3, 9 / 2, 6, 62914561 / 8388608, 37748737 / 4194304] := by decide +kernel

/-- Non-vacuity of the hypotheses of `pitch_drift`. -/
example : (⟨0, 0⟩ : Place).Ok ∧ Fits [3 / 2, 3 / 2] ∧ 1 ≤ ([3 / 2, 3 / 2] : List ℚ).sum := by
  have h : IsFloat (3 / 2) := ⟨3, -1, by norm_num, by norm_num, by norm_num⟩
  refine ⟨⟨⟨0, 0, by norm_num, by norm_num, by simp⟩, le_rfl, by norm_num⟩,
    ⟨?_, by norm_num, by norm_num⟩, by norm_num⟩
  intro x hx
  simp only [List.mem_cons, List.not_mem_nil, or_false, or_self] at hx
  subst hx
  exact ⟨h, by norm_num⟩

/-! ## Phases -/

lemma ulp_le_of_lt_two {x : ℚ} (h0 : 0 ≤ x) (h : x < 2) : ulp x ≤ 1 / 2 ^ 23 := by
  unfold ulp binExp
  rw [abs_of_nonneg h0]
  have hl : Int.log 2 x ≤ 0 := by
    rcases eq_or_lt_of_le h0 with h1 | h1
    · rw [← h1]; simp
    · have := zpow_lt_iff.mp (lt_of_le_of_lt (log_le h1) (by simpa using h : x < (2 : ℚ) ^ (1 : ℤ)))
      omega
  have h2 : max (Int.log 2 x) (-126) - 23 ≤ -23 := by
    have : max (Int.log 2 x) (-126) ≤ 0 := max_le hl (by norm_num)
    omega
  refine (zpow_mono h2).trans ?_
  norm_num [zpow_neg]

/-- A phase, or an increment, as the engine keeps them. -/
def Ok (x : ℚ) : Prop := IsFloat x ∧ 0 ≤ x ∧ x < 1

lemma advance_spec {incr ph : ℚ} (hi : Ok incr) (hp : Ok ph) :
    Ok (advance incr ph) ∧ ∃ e : ℚ, |e| ≤ u ∧
      advance incr ph = Int.fract (ph + incr + e) := by
  have hs0 : 0 ≤ fl (ph + incr) := fl_nonneg (by linarith [hi.2.1, hp.2.1])
  have hs2 : fl (ph + incr) ≤ 2 := by
    refine fl_le_of_le ?_ (by linarith [hi.2.2, hp.2.2])
    exact ⟨2, 0, by norm_num, by norm_num, by norm_num⟩
  have hx := split_exact (fl_isFloat (ph + incr)) hs0 (by linarith)
  have ha : advance incr ph = fl (ph + incr) - ⌊fl (ph + incr)⌋ := hx
  have hfr : advance incr ph = Int.fract (fl (ph + incr)) := ha
  refine ⟨⟨?_, ?_, ?_⟩, fl (ph + incr) - (ph + incr), ?_, ?_⟩
  · rw [ha]; exact isFloat_fract (fl_isFloat _) hs0
  · rw [hfr]; exact Int.fract_nonneg _
  · rw [hfr]; exact Int.fract_lt_one _
  · refine (fl_error _).trans ?_
    have := ulp_le_of_lt_two (x := ph + incr) (by linarith [hi.2.1, hp.2.1])
      (by linarith [hi.2.2, hp.2.2])
    unfold u; norm_num at this ⊢; linarith
  · rw [hfr]; congr 1; ring

lemma ok_zero : Ok 0 := ⟨⟨0, 0, by norm_num, by norm_num, by simp⟩, le_rfl, by norm_num⟩

/-- C128: after any number of frames the phase of an LFO or an oscillator is the exact one for a
frequency that differs from the one asked for by at most the sample rate times 2^-24: in cycles,
`n` frames are off by at most `n · 2^-24`. -/
theorem phase_drift_partial {incr : ℚ} (hi : Ok incr) (n : ℕ) :
    Ok (phase incr n) ∧ ∃ d : ℚ, |d| ≤ 1 / 2 ^ 24 ∧
      phase incr n = Int.fract (n * (incr + d)) := by
  have key : Ok (phase incr n) ∧ ∃ e : ℚ, |e| ≤ n * u ∧
      phase incr n = Int.fract (n * incr + e) := by
    induction n with
    | zero => exact ⟨ok_zero, 0, by simp, by simp [phase]⟩
    | succ n ih =>
      obtain ⟨hok, e, he, hp⟩ := ih
      obtain ⟨hok', e', he', hp'⟩ := advance_spec hi hok
      refine ⟨hok', e + e', ?_, ?_⟩
      · refine (abs_add_le _ _).trans ?_
        push_cast; linarith
      · change advance incr (phase incr n) = _
        rw [hp', hp]
        have : Int.fract (n * incr + e) + incr + e'
            = (((n + 1 : ℕ) : ℚ) * incr + (e + e')) - ⌊n * incr + e⌋ := by
          unfold Int.fract; push_cast; ring
        rw [this, Int.fract_sub_intCast]
  obtain ⟨hok, e, he, hp⟩ := key
  refine ⟨hok, ?_⟩
  rcases Nat.eq_zero_or_pos n with h | h
  · exact ⟨0, by norm_num, by rw [h]; simp [phase]⟩
  · have hn : (0 : ℚ) < n := by exact_mod_cast h
    refine ⟨e / n, ?_, ?_⟩
    · rw [abs_div, abs_of_pos hn, div_le_iff₀ hn]
      unfold u at he; linarith
    · rw [hp]; congr 1; field_simp

/-- C128 is violated for slow LFOs: below the sample rate times 2^-25 the phase never passes one
half, however long the note. -/
theorem lfo_stops_violated {incr : ℚ} (hi : Ok incr) (hs : incr < 1 / 2 ^ 25) (n : ℕ) :
    phase incr n ≤ 1 / 2 := by
  have hhalf : IsFloat (1 / 2) := ⟨1, -1, by norm_num, by norm_num, by norm_num⟩
  induction n with
  | zero => norm_num [phase]
  | succ n ih =>
    have hok := (phase_drift_partial hi n).1
    have hs0 : 0 ≤ fl (phase incr n + incr) := fl_nonneg (by linarith [hi.2.1, hok.2.1])
    have hle : fl (phase incr n + incr) ≤ 1 / 2 := by
      rcases eq_or_lt_of_le ih with h | h
      · by_contra hc
        push Not at hc
        have h1 := fl_nearest (phase incr n + incr) hhalf
        rw [h] at h1 hc
        rw [abs_of_nonpos (by linarith [hi.2.1] : (1 : ℚ) / 2 - (1 / 2 + incr) ≤ 0)] at h1
        have h2 := (abs_le.mp h1).2
        have hb : below (fl (1 / 2 + incr)) < fl (1 / 2 + incr) := below_lt
        have h3 := (le_below_iff (by linarith) (fl_isFloat (1 / 2 + incr)) hhalf).mpr hc
        have hlog : Int.log 2 (fl (1 / 2 + incr)) = -1 := by
          refine log_unique (by norm_num; linarith) ?_
          norm_num
          norm_num at hs
          linarith
        have hulp : ulp (fl (1 / 2 + incr)) = 1 / 2 ^ 24 := by
          unfold ulp binExp
          rw [abs_of_pos (by linarith), hlog]
          norm_num [zpow_neg]
        unfold below at h3
        rw [hlog, hulp] at h3
        rw [if_neg (by
          rintro ⟨h4, _⟩
          norm_num at h4 hc
          rw [h4] at hc
          norm_num at hc)] at h3
        norm_num at h3 hs
        linarith
      · have hfl := (le_below_iff (by norm_num) hhalf hok.1).mpr h
        have hb : below (1 / 2) ≤ 1 / 2 - 1 / 2 ^ 25 := by decide +kernel
        exact fl_le_of_le hhalf (by linarith)
    have hx := split_exact (fl_isFloat (phase incr n + incr)) hs0 (by linarith)
    have hfloor : ⌊fl (phase incr n + incr)⌋ = 0 := by
      rw [Int.floor_eq_iff]; constructor <;> push_cast <;> linarith
    change fl (fl (phase incr n + incr) - fl (⌊fl (phase incr n + incr)⌋ : ℤ)) ≤ _
    rw [hx, hfloor]; push_cast; linarith

/-- Non-vacuity of `lfo_stops_violated`: `lfo1_freq=0.001` (as a float) at 48 kHz. -/
example : Ok (lfoIncr 48000 1 (8589935 / 2 ^ 33)) ∧ lfoIncr 48000 1 (8589935 / 2 ^ 33) < 1 / 2 ^ 25 := by
  refine ⟨⟨fl_isFloat _, ?_, ?_⟩, ?_⟩ <;> decide +kernel

/-- Non-vacuity of `phase_drift_partial`: a vibrato of 5 Hz at 48 kHz; 3 frames on, the phase is
not the exact one. -/
example : Ok (lfoIncr 48000 1 5) ∧ phase (lfoIncr 48000 1 5) 3 ≠ 3 * lfoIncr 48000 1 5 := by
  refine ⟨⟨fl_isFloat _, ?_, ?_⟩, ?_⟩ <;> decide +kernel

end Verif.Drift
