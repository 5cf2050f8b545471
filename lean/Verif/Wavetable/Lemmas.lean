import Verif.Wavetable.Model
import Mathlib.Tactic.Linarith
import Mathlib.Tactic.NormNum
import Mathlib.Tactic.Ring
import Mathlib.Tactic.FieldSimp
import Mathlib.Tactic.Positivity
import Mathlib.Tactic.IntervalCases

/-!
# Lemmas about wavetable oscillators
-/
namespace Verif.Wavetable

open Real

theorem trunc_nonneg {x : ℝ} (h : 0 ≤ x) : trunc x = ⌊x⌋ := if_pos h

theorem trunc_neg {x : ℝ} (h : x < 0) : trunc x = ⌈x⌉ := if_neg (not_le.mpr h)

theorem trunc_rest (x : ℝ) : -1 < x - trunc x ∧ x - trunc x < 1 := by
  rcases le_or_gt 0 x with h | h
  · rw [trunc_nonneg h]
    have h1 := Int.floor_le x
    have h2 := Int.lt_floor_add_one x
    constructor <;> linarith
  · rw [trunc_neg h]
    have h1 := Int.le_ceil x
    have h2 := Int.ceil_lt_add_one x
    constructor <;> linarith

theorem clamp_mem {x lo hi : ℝ} (h : lo ≤ hi) : lo ≤ clamp x lo hi ∧ clamp x lo hi ≤ hi :=
  ⟨le_max_left _ _, max_le h (min_le_right _ _)⟩

theorem clamp_id {x lo hi : ℝ} (h : lo ≤ x) (h' : x ≤ hi) : clamp x lo hi = x := by
  unfold clamp; rw [min_eq_left h', max_eq_right h]

theorem clamp_low {x lo hi : ℝ} (h : x ≤ lo) (h' : lo ≤ hi) : clamp x lo hi = lo := by
  unfold clamp; rw [min_eq_left (h.trans h'), max_eq_left h]

theorem clamp_high {x lo hi : ℝ} (h : hi ≤ x) (h' : lo ≤ hi) : clamp x lo hi = hi := by
  unfold clamp; rw [min_eq_right h, max_eq_right h']

/-! ### The index of a table -/

theorem exactIndex_mem (f : ℝ) : 0 ≤ exactIndex f ∧ exactIndex f ≤ 23 := clamp_mem (by norm_num)

theorem lut_mem (i : ℕ) : 0 ≤ lut i ∧ lut i ≤ 23 := by
  unfold lut
  split
  · exact exactIndex_mem _
  · norm_num

theorem indexFor_mem (f : ℝ) : 0 ≤ indexFor f ∧ indexFor f ≤ 23 := by
  unfold indexFor
  simp only
  set pos := clamp ((f - 20) * (1023 / (12000 - 20))) 0 1023 with hpos
  have hp : 0 ≤ pos ∧ pos ≤ 1023 := clamp_mem (by norm_num)
  have hf : (0 : ℤ) ≤ ⌊pos⌋ := Int.floor_nonneg.mpr hp.1
  have hc : ((⌊pos⌋.toNat : ℕ) : ℝ) = (⌊pos⌋ : ℝ) := by
    exact_mod_cast congrArg (fun z : ℤ => (z : ℝ)) (Int.toNat_of_nonneg hf)
  have h0 : 0 ≤ pos - (⌊pos⌋.toNat : ℕ) := by rw [hc]; linarith [Int.floor_le pos]
  have h1 : pos - (⌊pos⌋.toNat : ℕ) ≤ 1 := by rw [hc]; linarith [Int.lt_floor_add_one pos]
  set c := pos - (⌊pos⌋.toNat : ℕ)
  have ha := lut_mem ⌊pos⌋.toNat
  have hb := lut_mem (min (⌊pos⌋.toNat + 1) 1023)
  constructor
  · nlinarith [mul_nonneg (sub_nonneg.mpr h1) ha.1, mul_nonneg h0 hb.1]
  · nlinarith [mul_nonneg (sub_nonneg.mpr h1) (sub_nonneg.mpr ha.2), mul_nonneg h0 (sub_nonneg.mpr hb.2)]

theorem trunc_indexFor (f : ℝ) : 0 ≤ trunc (indexFor f) ∧ trunc (indexFor f) ≤ 23 := by
  have h := indexFor_mem f
  rw [trunc_nonneg h.1]
  refine ⟨Int.floor_nonneg.mpr h.1, ?_⟩
  have : (⌊indexFor f⌋ : ℝ) ≤ 23 := (Int.floor_le _).trans h.2
  exact_mod_cast this

theorem tableFor_lt (f : ℝ) : tableFor f < 24 := by
  have := trunc_indexFor f
  unfold tableFor; omega

theorem pairFor_lt (f : ℝ) : (pairFor f).1 < 24 ∧ (pairFor f).2.1 < 24 := by
  unfold pairFor; constructor <;> simp only <;> omega

theorem pairFor_fst (f : ℝ) : (pairFor f).1 = tableFor f := by
  have := trunc_indexFor f
  unfold pairFor tableFor; simp only; omega

theorem pairFor_snd (f : ℝ) : (pairFor f).2.1 = min (tableFor f + 1) 23 := by
  have := trunc_indexFor f
  unfold pairFor tableFor; simp only; omega

theorem pairFor_delta (f : ℝ) : 0 ≤ (pairFor f).2.2 ∧ (pairFor f).2.2 < 1 := by
  unfold pairFor
  simp only
  have h := indexFor_mem f
  rw [trunc_nonneg h.1]
  constructor
  · linarith [Int.floor_le (indexFor f)]
  · linarith [Int.lt_floor_add_one (indexFor f)]

/-! ### The ends of tables -/

/-- Where `i` falls in a table that repeats. -/
def cyc (size : ℕ) (i : ℤ) : ℕ := (i % (size : ℤ)).toNat

theorem fillRight_other (b e : ℕ) : ∀ (k src dst : ℕ) (mem : ℕ → ℝ) (j : ℕ), (j < dst ∨ dst + k ≤ j) →
    fillRight b e k src dst mem j = mem j := by
  intro k
  induction k with
  | zero => intros; rfl
  | succ k ih =>
    intro src dst mem j hj
    rw [fillRight, ih _ _ _ _ (by omega), Function.update_of_ne (by omega)]

theorem fillLeft_other (b e : ℕ) : ∀ (k src dst : ℕ) (mem : ℕ → ℝ) (j : ℕ), k ≤ dst + 1 → (dst < j ∨ j + k ≤ dst) →
    fillLeft b e k src dst mem j = mem j := by
  intro k
  induction k with
  | zero => intros; rfl
  | succ k ih =>
    intro src dst mem j hk hj
    have hne : j ≠ dst := by omega
    rcases Nat.eq_zero_or_pos dst with h0 | h0
    · have : k = 0 := by omega
      subst this
      rw [fillLeft, fillLeft, Function.update_of_ne hne]
    · rw [fillLeft, ih _ _ _ _ (by omega) (by omega), Function.update_of_ne hne]

theorem fillRight_at (b size : ℕ) (hs : 0 < size) : ∀ (k n : ℕ) (mem : ℕ → ℝ),
    (∀ i, i < n → mem (b + size + i) = mem (b + i % size)) → ∀ i, i < n + k →
    fillRight b (b + size) k (b + n % size) (b + size + n) mem (b + size + i) = mem (b + i % size) := by
  intro k
  induction k with
  | zero => intro n mem h i hi; exact h i (by omega)
  | succ k ih =>
    intro n mem h i hi
    rw [fillRight]
    have hlt : n % size < size := Nat.mod_lt _ hs
    have hsrc : (if b + n % size + 1 ≠ b + size then b + n % size + 1 else b) = b + (n + 1) % size := by
      rw [Nat.add_mod n 1 size]
      split
      · rename_i hne
        have h1 : 1 % size = 1 := Nat.mod_eq_of_lt (by omega)
        rw [h1, Nat.mod_eq_of_lt (a := n % size + 1) (by omega)]; omega
      · rename_i heq
        have heq : n % size + 1 = size := by omega
        rcases Nat.lt_or_ge 1 size with h1 | h1
        · rw [Nat.mod_eq_of_lt h1, heq, Nat.mod_self]; omega
        · have : size = 1 := by omega
          subst this; simp [Nat.mod_one]
    rw [hsrc, show b + size + n + 1 = b + size + (n + 1) by omega]
    have hupd : ∀ j, j ≠ b + size + n → Function.update mem (b + size + n) (mem (b + n % size)) j = mem j :=
      fun j hj => Function.update_of_ne hj _ _
    have hlti : ∀ i, i % size < size := fun i => Nat.mod_lt _ hs
    have hme : ∀ i, Function.update mem (b + size + n) (mem (b + n % size)) (b + i % size) = mem (b + i % size) :=
      fun i => hupd _ (by have := hlti i; omega)
    rw [ih (n + 1) _ (fun i hi => ?_) i (by omega), hme]
    rw [hme]
    rcases Nat.lt_or_ge i n with h' | h'
    · rw [hupd _ (by omega)]; exact h i h'
    · have : i = n := by omega
      subst this; rw [Function.update_self]

/-- `src` after `n` steps to the left. -/
def back (size n : ℕ) : ℕ := size - 1 - n % size

theorem fillLeft_at (b size : ℕ) (hs : 0 < size) : ∀ (k n : ℕ) (mem : ℕ → ℝ), n + k ≤ b →
    (∀ i, i < n → mem (b - 1 - i) = mem (b + back size i)) → ∀ i, i < n + k →
    fillLeft b (b + size) k (b + back size n) (b - 1 - n) mem (b - 1 - i) = mem (b + back size i) := by
  intro k
  induction k with
  | zero => intro n mem _ h i hi; exact h i (by omega)
  | succ k ih =>
    intro n mem hb h i hi
    rw [fillLeft]
    have hlt : n % size < size := Nat.mod_lt _ hs
    have hsrc : (if b + back size n ≠ b then b + back size n - 1 else b + size - 1) = b + back size (n + 1) := by
      unfold back
      rw [Nat.add_mod n 1 size]
      split
      · rename_i hne
        have h1 : 1 % size = 1 := Nat.mod_eq_of_lt (by omega)
        rw [h1, Nat.mod_eq_of_lt (a := n % size + 1) (by omega)]; omega
      · rename_i heq
        have heq : n % size + 1 = size := by omega
        rcases Nat.lt_or_ge 1 size with h1 | h1
        · rw [Nat.mod_eq_of_lt h1, heq, Nat.mod_self]; omega
        · have : size = 1 := by omega
          subst this; simp [Nat.mod_one]
    rw [hsrc, show b - 1 - n - 1 = b - 1 - (n + 1) by omega]
    have hupd : ∀ j, j ≠ b - 1 - n → Function.update mem (b - 1 - n) (mem (b + back size n)) j = mem j :=
      fun j hj => Function.update_of_ne hj _ _
    have hme : ∀ i, Function.update mem (b - 1 - n) (mem (b + back size n)) (b + back size i) = mem (b + back size i) :=
      fun i => hupd _ (by omega)
    rw [ih (n + 1) _ (by omega) (fun i hi => ?_) i (by omega), hme]
    rw [hme]
    rcases Nat.lt_or_ge i n with h' | h'
    · rw [hupd _ (by omega)]; exact h i h'
    · have : i = n := by omega
      subst this; rw [Function.update_self]

theorem fillTable_other (size m : ℕ) (mem : ℕ → ℝ) (j : ℕ) (h : j + tableExtra < tableStart size m ∨
    tableStart size m + size + tableExtra ≤ j) : fillTable size m mem j = mem j := by
  have hb : tableExtra ≤ tableStart size m := by unfold tableStart; omega
  unfold fillTable tableExtra at *
  rw [fillLeft_other _ _ _ _ _ _ _ (by omega) (by omega), fillRight_other _ _ _ _ _ _ _ (by omega)]

/-- A table after `fillExtra`, at all offsets that may be read. -/
theorem fillTable_at (size m : ℕ) (hs : 0 < size) (mem : ℕ → ℝ) (i : ℤ) (h : -4 ≤ i) (h' : i < size + 4) :
    fillTable size m mem ((tableStart size m : ℤ) + i).toNat = mem (tableStart size m + cyc size i) := by
  have hb : 4 ≤ tableStart size m := by unfold tableStart tableExtra; omega
  unfold fillTable tableExtra
  set b := tableStart size m
  have hR : ∀ k : ℕ, k < 4 → fillRight b (b + size) 4 b (b + size) mem (b + size + k) = mem (b + k % size) := by
    intro k hk
    have := fillRight_at b size hs 4 0 mem (by intro i hi; omega) k (by omega)
    simpa using this
  have hin : ∀ k : ℕ, k < size → fillRight b (b + size) 4 b (b + size) mem (b + k) = mem (b + k) :=
    fun k hk => fillRight_other _ _ _ _ _ _ _ (by omega)
  set mem' := fillRight b (b + size) 4 b (b + size) mem
  rcases lt_or_ge i 0 with hi | hi
  · obtain ⟨k, hk, rfl⟩ : ∃ k : ℕ, k < 4 ∧ i = -1 - (k : ℤ) := ⟨(-1 - i).toNat, by omega, by omega⟩
    have h1 : (((b : ℤ) + (-1 - (k : ℤ)))).toNat = b - 1 - k := by omega
    have hL := fillLeft_at b size hs 4 0 mem' (by omega) (by intro i hi; omega) k (by omega)
    have hback0 : back size 0 = size - 1 := by simp [back]
    rw [hback0, show b + (size - 1) = b + size - 1 by omega, show b - 1 - 0 = b - 1 by omega] at hL
    rw [h1, hL, hin _ (by unfold back; omega)]
    congr 2
    unfold back cyc
    have hm : k % size < size := Nat.mod_lt _ hs
    have hd := Nat.div_add_mod k size
    have : (-1 - (k : ℤ)) % (size : ℤ) = ((size - 1 - k % size : ℕ) : ℤ) := by
      have h2 : (-1 - (k : ℤ)) = ((size - 1 - k % size : ℕ) : ℤ) + (size : ℤ) * (-(k / size : ℕ) - 1) := by
        have : ((size - 1 - k % size : ℕ) : ℤ) = (size : ℤ) - 1 - (k % size : ℕ) := by omega
        rw [this]
        have hd' : (size : ℤ) * (k / size : ℕ) + (k % size : ℕ) = k := by exact_mod_cast hd
        linarith
      rw [h2, Int.add_mul_emod_self_left]
      exact Int.emod_eq_of_lt (by omega) (by omega)
    rw [this]; omega
  · obtain ⟨k, rfl⟩ := Int.eq_ofNat_of_zero_le hi
    have h1 : ((b : ℤ) + (k : ℤ)).toNat = b + k := by omega
    have h2 : cyc size (k : ℤ) = k % size := by
      unfold cyc; rw [← Int.natCast_mod]; rfl
    rw [h1, h2, fillLeft_other _ _ _ _ _ _ _ (by omega) (by omega)]
    rcases Nat.lt_or_ge k size with hlt | hge
    · rw [hin k hlt, Nat.mod_eq_of_lt hlt]
    · obtain ⟨c, rfl⟩ : ∃ c, k = size + c := ⟨k - size, by omega⟩
      rw [← Nat.add_assoc, hR c (by omega), Nat.add_mod_left]

theorem tableStart_lt {size m m' : ℕ} (h : m < m') : tableStart size m + size + 4 ≤ tableStart size m' - 4 := by
  unfold tableStart tableExtra
  have : (m + 1) * (size + 2 * 4) ≤ m' * (size + 2 * 4) := Nat.mul_le_mul_right _ h
  rw [Nat.succ_mul] at this
  omega

/-- What is read from any table after `fillExtra`. -/
theorem fillExtra_get (w : Multi) (hs : 0 < w.size) (m : ℕ) (hm : m < 24) (i : ℤ) (h : -4 ≤ i) (h' : i < w.size + 4) :
    (fillExtra w).get m i = some (w.data (tableStart w.size m + cyc w.size i)) := by
  have hb : ∀ m, 4 ≤ tableStart w.size m := fun m => by unfold tableStart tableExtra; omega
  have hsize : (fillExtra w).size = w.size := rfl
  have key : ∀ (n : ℕ), (∀ m, m < n → ∀ i : ℤ, -4 ≤ i → i < w.size + 4 →
      (List.range n).foldl (fun mem m => fillTable w.size m mem) w.data ((tableStart w.size m : ℤ) + i).toNat =
        w.data (tableStart w.size m + cyc w.size i)) ∧
      (∀ m, n ≤ m → ∀ j, tableStart w.size m ≤ j + 4 →
        (List.range n).foldl (fun mem m => fillTable w.size m mem) w.data j = w.data j) := by
    intro n
    induction n with
    | zero => exact ⟨fun m hm => absurd hm (by omega), fun m _ j _ => rfl⟩
    | succ n ih =>
      rw [List.range_succ, List.foldl_append]
      simp only [List.foldl_cons, List.foldl_nil]
      constructor
      · intro m hm i hi hi'
        rcases Nat.lt_or_ge m n with hlt | hge
        · rw [fillTable_other, ih.1 m hlt i hi hi']
          left
          have := tableStart_lt (size := w.size) hlt
          have := hb m
          have := hb n
          unfold tableExtra; omega
        · have : m = n := by omega
          subst this
          rw [fillTable_at _ _ hs _ _ hi hi', ih.2 m (le_refl _) _ (by omega)]
      · intro m hm j hj
        rw [fillTable_other, ih.2 m (by omega) j hj]
        right
        have := tableStart_lt (size := w.size) (show n < m by omega)
        have := hb m
        unfold tableExtra; omega
  unfold Multi.get
  simp only [hsize]
  rw [if_pos]
  · exact congrArg some ((key 24).1 m hm i h h')
  · have := hb m
    constructor
    · omega
    · have h1 : (m + 1) * (w.size + 2 * tableExtra) ≤ (w.size + 2 * tableExtra) * numTables := by
        rw [Nat.mul_comm]; exact Nat.mul_le_mul_left _ (by unfold numTables; omega)
      rw [Nat.succ_mul] at h1
      have h2 : tableStart w.size m = m * (w.size + 2 * tableExtra) + tableExtra := rfl
      unfold tableExtra at *
      omega

end Verif.Wavetable
