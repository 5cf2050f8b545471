import Verif.Curve.Model
import Mathlib.Tactic.Linarith
import Mathlib.Tactic.FieldSimp
import Mathlib.Tactic.Ring
import Mathlib.Data.List.Induction

/-! C32: curves interpolate; C33: curve numbering. -/
namespace Verif.Curve

/-! ### Specification -/

/-- The straight line through two points. -/
def line (x1 y1 x2 y2 x : ℚ) : ℚ := y1 + (x - x1) / (x2 - x1) * (y2 - y1)

/-- The value given to point `i` of a curve: the last one, the ends being 0 and 1 unless given. -/
def given (members : List (Nat × ℚ)) (i : Nat) : Option ℚ :=
  match (members.filter (fun m => m.1 = i)).getLast? with
  | some m => some m.2
  | none => if i = 0 then some 0 else if i = 127 then some 1 else none

/-- `l` and `r` are adjacent given points. -/
def Adjacent (members : List (Nat × ℚ)) (l r : Nat) (yl yr : ℚ) : Prop :=
  l < r ∧ r < 128 ∧ given members l = some yl ∧ given members r = some yr ∧ ∀ i, l < i → i < r → given members i = none

/-! ### Lemmas -/

theorem nextFilled_stop (filled : Nat → Bool) (right : Nat) (h : nextFilled filled right < size) :
    filled (nextFilled filled right) = true := by
  fun_induction nextFilled with
  | case1 r hr ih => exact ih h
  | case2 r hr =>
    by_contra hf
    exact hr ⟨h, by simpa using hf⟩

theorem nextFilled_between (filled : Nat → Bool) (right i : Nat) (h1 : right ≤ i) (h2 : i < nextFilled filled right) :
    filled i = false := by
  fun_induction nextFilled with
  | case1 r hr ih =>
    rcases Nat.eq_or_lt_of_le h1 with rfl | h
    · exact hr.2
    · exact ih h h2
  | case2 r hr => omega

theorem nextFilled_le (filled : Nat → Bool) (right j : Nat) (h1 : right ≤ j) (hf : filled j = true) :
    nextFilled filled right ≤ j := by
  by_contra h
  rw [nextFilled_between filled right j h1 (by omega)] at hf
  cases hf

/-- What `lerpFill` makes of the points. -/
def Filled (filled : Nat → Bool) (p q : Points) (from_ : Nat) : Prop :=
  (∀ i, i ≤ from_ → q i = p i) ∧ (∀ i, filled i = true → q i = p i) ∧
  ∀ l r, from_ ≤ l → l < r → r < size → filled l = true → filled r = true → (∀ i, l < i → i < r → filled i = false) →
    ∀ i, l ≤ i → i ≤ r → q i = line l (p l) r (p r) i

theorem line_left (x1 y1 x2 y2 : ℚ) : line x1 y1 x2 y2 x1 = y1 := by simp [line]

theorem line_right (x1 y1 x2 y2 : ℚ) (h : x1 ≠ x2) : line x1 y1 x2 y2 x2 = y2 := by
  unfold line
  have : x2 - x1 ≠ 0 := sub_ne_zero.mpr (Ne.symm h)
  rw [div_self this]; ring

theorem lerpLoop_spec (filled : Nat → Bool) (hlast : filled (size - 1) = true) (p : Points) (left right : Nat)
    (hr : right = left + 1) (hl : left < size) (hfl : filled left = true) :
    ∃ q, lerpLoop filled p left right = some q ∧ Filled filled p q left := by
  fun_induction lerpLoop with
  | case1 p left right hlt r hgt hrs ih =>
    have hge := nextFilled_ge filled right
    obtain ⟨q, hq, h1, h2, h3⟩ := ih rfl hrs (nextFilled_stop filled right hrs)
    refine ⟨q, hq, ?_⟩
    have hmid : ∀ i, left < i → i < r → filled i = false := fun i hi1 hi2 =>
      nextFilled_between filled right i (by omega) hi2
    have hmu : ((r - left : Nat) : ℚ) = (r : ℚ) - left := by rw [Nat.cast_sub (by omega)]
    have hramp : ∀ i, ramp p left (r - left) (p left) ((p r - p left) / ((r - left : Nat) : ℚ)) i =
        if left ≤ i ∧ i < r then line left (p left) r (p r) i else p i := by
      intro i
      unfold ramp
      have : left + (r - left) = r := by omega
      rw [this]
      by_cases hi : left ≤ i ∧ i < r
      · rw [if_pos hi, if_pos hi, hmu, Nat.cast_sub hi.1]
        unfold line
        ring
      · rw [if_neg hi, if_neg hi]
    have hfilled : ∀ i, filled i = true → (if left ≤ i ∧ i < r then line left (p left) r (p r) i else p i) = p i := by
      intro i hi
      by_cases h : left ≤ i ∧ i < r
      · rw [if_pos h]
        rcases Nat.eq_or_lt_of_le h.1 with rfl | hlt'
        · exact line_left _ _ _ _
        · rw [hmid i hlt' h.2] at hi; cases hi
      · rw [if_neg h]
    refine ⟨?_, ?_, ?_⟩
    · intro i hi
      rw [h1 i (by omega), hramp]
      by_cases h : left ≤ i ∧ i < r
      · have : i = left := by omega
        subst this
        rw [if_pos h, line_left]
      · rw [if_neg h]
    · intro i hi
      rw [h2 i hi, hramp, hfilled i hi]
    · intro l r' hl1 hlr hr' hfl' hfr' hbet i hi1 hi2
      rcases Nat.eq_or_lt_of_le hl1 with rfl | hlt'
      · have hrr : r' = r := by
          apply le_antisymm
          · by_contra hcon
            have := hbet r (by omega) (by omega)
            rw [nextFilled_stop filled right hrs] at this
            cases this
          · exact nextFilled_le filled right r' (by omega) hfr'
        subst hrr
        rw [h1 i hi2, hramp]
        by_cases h : left ≤ i ∧ i < r
        · rw [if_pos h]
        · have : i = r := by omega
          subst this
          rw [if_neg h, line_right _ _ _ _ (by exact_mod_cast Nat.ne_of_lt hlr)]
      · have hlr2 : r ≤ l := nextFilled_le filled right l (by omega) hfl'
        rw [h3 l r' hlr2 hlr hr' hfl' hfr' hbet i hi1 hi2, hramp, hramp, hfilled l hfl', hfilled r' hfr']
  | case2 p left right hlt r hgt hrs =>
    exfalso
    have := nextFilled_le filled right (size - 1) (by omega) hlast
    have hs : size = 128 := rfl
    omega
  | case3 p left right hlt r hgt ih =>
    have hge := nextFilled_ge filled right
    have hr1 : r = left + 1 := by omega
    have hrs : r < size := by omega
    obtain ⟨q, hq, h1, h2, h3⟩ := ih rfl hrs (nextFilled_stop filled right hrs)
    refine ⟨q, hq, fun i hi => h1 i (by omega), h2, ?_⟩
    intro l r' hl1 hlr hr' hfl' hfr' hbet i hi1 hi2
    rcases Nat.eq_or_lt_of_le hl1 with rfl | hlt'
    · have hrr : r' = r := by
        apply le_antisymm
        · by_contra hcon
          have := hbet r (by omega) (by omega)
          rw [nextFilled_stop filled right hrs] at this
          cases this
        · omega
      subst hrr
      have hi : i = left ∨ i = r := by omega
      rcases hi with rfl | rfl
      · rw [h1 _ (by omega), line_left]
      · rw [h1 _ (le_refl _), line_right _ _ _ _ (by exact_mod_cast Nat.ne_of_lt hlr)]
    · exact h3 l r' (by omega) hlr hr' hfl' hfr' hbet i hi1 hi2
  | case4 p left right hlt =>
    refine ⟨p, rfl, fun _ _ => rfl, fun _ _ => rfl, ?_⟩
    intro l r h1 h2 h3
    omega

/-- The state of the builder follows the given values. -/
def Follows (b : Build) (members : List (Nat × ℚ)) : Prop :=
  ∀ i, i < size → (b.filled i = true ↔ (given members i).isSome) ∧ ∀ y, given members i = some y → b.points i = y

theorem given_append (ms : List (Nat × ℚ)) (m : Nat × ℚ) (i : Nat) :
    given (ms ++ [m]) i = if m.1 = i then some m.2 else given ms i := by
  unfold given
  rw [List.filter_append]
  by_cases h : m.1 = i
  · rw [if_pos h]
    simp [h]
  · rw [if_neg h]
    simp [h]

theorem follows_start : Follows ((({} : Build).set 0 0).set (size - 1) 1) [] := by
  intro i hi
  have hs : size = 128 := rfl
  have he : size - 1 = 127 := rfl
  rw [he]
  unfold given Build.set
  simp only [List.filter_nil, List.getLast?_nil]
  by_cases h0 : i = 0
  · subst h0; simp
  · by_cases h1 : i = 127
    · subst h1; simp
    · simp [h0, h1]

theorem follows_fold (ms : List (Nat × ℚ)) : Follows (ms.foldl (fun b m => if m.1 ≥ size then b else b.set m.1 m.2)
    ((({} : Build).set 0 0).set (size - 1) 1)) ms := by
  induction ms using List.reverseRecOn with
  | nil => exact follows_start
  | append_singleton ms m ih =>
    rw [List.foldl_append]
    simp only [List.foldl_cons, List.foldl_nil]
    intro i hi
    rw [given_append]
    by_cases hm : m.1 ≥ size
    · rw [if_pos hm, if_neg (by omega)]
      exact ih i hi
    · rw [if_neg hm]
      unfold Build.set
      by_cases h : m.1 = i
      · subst h; simp
      · have h' : ¬ i = m.1 := fun hh => h hh.symm
        simp only [h, h', if_false]
        exact ih i hi

theorem velcurve_fold (ms : List (Nat × ℚ)) (h : ∀ m ∈ ms, m.1 < size) (b : Build) :
    ms.foldl (fun b m => b.set m.1 m.2) b = ms.foldl (fun b m => if m.1 ≥ size then b else b.set m.1 m.2) b := by
  induction ms generalizing b with
  | nil => rfl
  | cons m ms ih =>
    have := h m (by simp)
    simp only [List.foldl_cons]
    rw [if_neg (by omega), ih (fun m hm => h m (by simp [hm]))]

theorem given_zero (ms : List (Nat × ℚ)) : (given ms 0).isSome := by
  unfold given; split <;> simp

theorem given_last (ms : List (Nat × ℚ)) : (given ms 127).isSome := by
  unfold given; split <;> simp

/-- What a built curve is. -/
theorem build_spec (b : Build) (ms : List (Nat × ℚ)) (h : Follows b ms) :
    ∃ q, lerpFill b = some q ∧ (∀ i y, i < size → given ms i = some y → q i = y) ∧
      ∀ l r yl yr, Adjacent ms l r yl yr → ∀ i, l ≤ i → i ≤ r → q i = line l yl r yr i := by
  have hs : size = 128 := rfl
  obtain ⟨q, hq, h1, h2, h3⟩ := lerpLoop_spec b.filled ((h 127 (by omega)).1.mpr (given_last ms)) b.points 0 1 rfl (by omega)
    ((h 0 (by omega)).1.mpr (given_zero ms))
  refine ⟨q, hq, ?_, ?_⟩
  · intro i y hi hy
    rw [h2 i ((h i hi).1.mpr (by rw [hy]; rfl)), (h i hi).2 y hy]
  · intro l r yl yr ⟨hlr, hr, hl, hyr, hbet⟩ i hi1 hi2
    rw [h3 l r (Nat.zero_le _) hlr (by omega) ((h l (by omega)).1.mpr (by rw [hl]; rfl)) ((h r (by omega)).1.mpr (by rw [hyr]; rfl))
      (fun i hi hi' => by
        have := (h i (by omega)).1
        rw [hbet i hi hi'] at this
        simpa using this) i hi1 hi2, (h l (by omega)).2 yl hl, (h r (by omega)).2 yr hyr]

theorem clamp_mem (v : ℚ) : 0 ≤ clamp v 0 127 ∧ clamp v 0 127 ≤ 127 := by
  unfold clamp
  exact ⟨le_max_right _ _, max_le (min_le_right _ _) (by norm_num)⟩

theorem clamp_id (v : ℚ) (h0 : 0 ≤ v) (h1 : v ≤ 127) : clamp v 0 127 = v := by
  unfold clamp
  rw [min_eq_left h1, max_eq_left h0]

/-- Evaluation in terms of the integer part. -/
theorem eval_at (p : Points) (v : ℚ) (i : Nat) (h0 : (i : ℚ) ≤ v) (h1 : v < i + 1) (hi : i ≤ 127) (hv : v ≤ 127) :
    evalCC7 p v = some (p i + (v - i) * (p (min 127 (i + 1)) - p i)) := by
  have hs : (size : Int) = 128 := rfl
  have hv0 : 0 ≤ v := le_trans (by exact_mod_cast Nat.zero_le i) h0
  have hf : ⌊v⌋ = (i : Int) := by
    rw [Int.floor_eq_iff]
    exact ⟨by exact_mod_cast h0, by exact_mod_cast h1⟩
  unfold evalCC7
  simp only [clamp_id v hv0 hv, hv0, if_true, hf]
  rw [if_pos (by omega)]
  have : (min 127 ((i : Int) + 1)).toNat = min 127 (i + 1) := by omega
  rw [this]
  simp

/-! ### C32 -/

/-- C32: evaluation is defined (inside the table) for every table and every number, and lies between two neighbouring points
of the table. -/
theorem eval_defined (p : Points) (v : ℚ) : ∃ y i, evalCC7 p v = some y ∧ i < 127 ∧
    min (p i) (p (i + 1)) ≤ y ∧ y ≤ max (p i) (p (i + 1)) := by
  obtain ⟨c0, c1⟩ := clamp_mem v
  have hev : evalCC7 p v = evalCC7 p (clamp v 0 127) := by
    unfold evalCC7
    rw [clamp_id _ c0 c1]
  generalize hw : clamp v 0 127 = w at *
  by_cases h127 : w = 127
  · subst h127
    refine ⟨p 127, 126, ?_, by omega, min_le_right _ _, le_max_right _ _⟩
    rw [hev, eval_at p 127 127 (by norm_num) (by norm_num) (le_refl _) (le_refl _)]
    norm_num
  · have hlt : w < 127 := lt_of_le_of_ne c1 h127
    have f1 := Int.floor_le w
    have f2 := Int.lt_floor_add_one w
    have f0 : 0 ≤ ⌊w⌋ := Int.floor_nonneg.mpr c0
    have f3 : ⌊w⌋ < 127 := by rw [Int.floor_lt]; exact_mod_cast hlt
    obtain ⟨i, hi⟩ : ∃ i : Nat, ⌊w⌋ = (i : Int) := ⟨⌊w⌋.toNat, by omega⟩
    rw [hi] at f1 f2 f3
    have g1 : (i : ℚ) ≤ w := by exact_mod_cast f1
    have g2 : w < (i : ℚ) + 1 := by exact_mod_cast f2
    refine ⟨_, i, by rw [hev, eval_at p w i g1 g2 (by omega) c1], by omega, ?_, ?_⟩
    · rw [show min 127 (i + 1) = i + 1 by omega]
      rcases le_total (p i) (p (i + 1)) with h | h
      · rw [min_eq_left h]
        nlinarith [mul_nonneg (sub_nonneg.mpr g1) (sub_nonneg.mpr h)]
      · rw [min_eq_right h]
        nlinarith [mul_nonneg (sub_nonneg.mpr h) (show (0 : ℚ) ≤ 1 - (w - i) by linarith)]
    · rw [show min 127 (i + 1) = i + 1 by omega]
      rcases le_total (p i) (p (i + 1)) with h | h
      · rw [max_eq_right h]
        nlinarith [mul_nonneg (sub_nonneg.mpr h) (show (0 : ℚ) ≤ 1 - (w - i) by linarith)]
      · rw [max_eq_left h]
        nlinarith [mul_nonneg (sub_nonneg.mpr g1) (sub_nonneg.mpr h)]

/-- C32: the curve of any `<curve>` header exists; it passes through each given point (the last one given for the index), and
between two adjacent given points it is the straight line through them, for every real argument. -/
theorem curve_interpolates (members : List (Nat × ℚ)) : ∃ p, fromHeader members = some p ∧
    (∀ i y, i ≤ 127 → given members i = some y → evalCC7 p i = some y ∧ evalCC7Int p i = some y) ∧
    (∀ l r yl yr, Adjacent members l r yl yr → ∀ x : ℚ, (l : ℚ) ≤ x → x ≤ r → evalCC7 p x = some (line l yl r yr x)) ∧
    (∀ x, x ≤ 0 → evalCC7 p x = evalCC7 p 0) ∧ (∀ x, 127 ≤ x → evalCC7 p x = evalCC7 p 127) := by
  have hs : size = 128 := rfl
  obtain ⟨p, hp, h1, h2⟩ := build_spec _ members (follows_fold members)
  refine ⟨p, hp, ?_, ?_, ?_, ?_⟩
  · intro i y hi hy
    have hpi := h1 i y (by omega) hy
    have hi' : (i : ℚ) ≤ 127 := by exact_mod_cast hi
    constructor
    · rw [eval_at p i i (le_refl _) (by linarith) hi hi', hpi]
      simp
    · unfold evalCC7Int clamp
      have hc : max (min (i : Int) 127) 0 = i := by omega
      have hs' : (size : Int) = 128 := rfl
      simp only [hc]
      rw [if_pos (by omega)]
      simp [hpi]
  · intro l r yl yr hadj x hx1 hx2
    have hline := h2 l r yl yr hadj
    obtain ⟨hlr, hr, -⟩ := hadj
    have hr' : (r : ℚ) ≤ 127 := by exact_mod_cast (by omega : r ≤ 127)
    by_cases hxr : x = r
    · subst hxr
      rw [eval_at p r r (le_refl _) (by linarith) (by omega) hr', hline r (by omega) (le_refl _)]
      simp
    · have hlt : x < r := lt_of_le_of_ne hx2 hxr
      have hx0 : 0 ≤ x := le_trans (by exact_mod_cast Nat.zero_le l) hx1
      have f1 := Int.floor_le x
      have f2 := Int.lt_floor_add_one x
      have f0 : 0 ≤ ⌊x⌋ := Int.floor_nonneg.mpr hx0
      have f3 : ⌊x⌋ < r := by rw [Int.floor_lt]; exact_mod_cast hlt
      have f4 : (l : Int) ≤ ⌊x⌋ := by rw [Int.le_floor]; exact_mod_cast hx1
      obtain ⟨i, hi⟩ : ∃ i : Nat, ⌊x⌋ = (i : Int) := ⟨⌊x⌋.toNat, by omega⟩
      rw [hi] at f1 f2 f3 f4
      have g1 : (i : ℚ) ≤ x := by exact_mod_cast f1
      have g2 : x < (i : ℚ) + 1 := by exact_mod_cast f2
      rw [eval_at p x i g1 g2 (by omega) (by linarith), show min 127 (i + 1) = i + 1 by omega,
        hline i (by omega) (by omega), hline (i + 1) (by omega) (by omega)]
      unfold line
      push_cast
      congr 1
      ring
  · intro x hx
    have hc : clamp x 0 127 = clamp 0 0 127 := by
      unfold clamp
      rw [min_eq_left (by linarith), max_eq_right hx, min_eq_left (by norm_num), max_self]
    unfold evalCC7
    rw [hc]
  · intro x hx
    have hc : clamp x 0 127 = clamp 127 0 127 := by
      unfold clamp
      rw [min_eq_right hx, min_self]
    unfold evalCC7
    rw [hc]

/-- C32: velocity curves (`amp_velcurve_N`) are built from their points in the same way. -/
theorem velcurve_same (members : List (Nat × ℚ)) (h : ∀ m ∈ members, m.1 ≤ 127) : fromVelcurve members = fromHeader members := by
  have hs : size = 128 := rfl
  unfold fromVelcurve fromHeader
  have hall : (members.all fun m => decide (m.1 < size)) = true := by
    rw [List.all_eq_true]
    intro m hm
    have := h m hm
    simp only [decide_eq_true_eq]; omega
  rw [if_pos hall, velcurve_fold members (fun m hm => by have := h m hm; omega)]

/-- C32: a two-ended curve is the straight line between its ends. -/
theorem bipolar_line (v1 v2 : ℚ) : ∃ p, bipolar v1 v2 = some p ∧
    ∀ x : ℚ, 0 ≤ x → x ≤ 1 → evalNormalized p x = some (v1 + x * (v2 - v1)) := by
  have hb : fromHeader [(0, v1), (127, v2)] = bipolar v1 v2 := by
    unfold fromHeader bipolar
    congr 1
    have hs : size = 128 := rfl
    simp only [List.foldl_cons, List.foldl_nil, hs]
    norm_num
    unfold Build.set
    simp only
    congr 1
    · funext j
      by_cases h1 : j = 127
      · simp [h1]
      · by_cases h0 : j = 0 <;> simp [h0, h1]
    · funext j
      by_cases h1 : j = 127
      · simp [h1]
      · by_cases h0 : j = 0 <;> simp [h0, h1]
  obtain ⟨p, hp, _, h2, _⟩ := curve_interpolates [(0, v1), (127, v2)]
  refine ⟨p, by rw [← hb]; exact hp, ?_⟩
  intro x hx0 hx1
  have hadj : Adjacent [(0, v1), (127, v2)] 0 127 v1 v2 := by
    refine ⟨by omega, by omega, by simp [given], by simp [given], ?_⟩
    intro i hi1 hi2
    have h0 : ¬ 0 = i := by omega
    have h1 : ¬ 127 = i := by omega
    have h0' : ¬ i = 0 := by omega
    have h1' : ¬ i = 127 := by omega
    simp [given, h0, h1, h0', h1']
  unfold evalNormalized
  rw [h2 0 127 v1 v2 hadj (x * 127) (by push_cast; linarith) (by push_cast; linarith)]
  unfold line
  push_cast
  congr 1
  ring

/-- A curve with points at 0, 64 (given twice) and 127. -/
example : Adjacent [(64, 3), (64, 1/4), (200, 7)] 0 64 0 (1/4) ∧
    ((fromHeader [(64, 3), (64, 1/4), (200, 7)]).bind fun p => evalCC7 p 32) = some (1/8) := by
  refine ⟨⟨by omega, by omega, by decide +kernel, by decide +kernel, ?_⟩, by decide +kernel⟩
  intro i h1 h2
  have a : ¬ 64 = i := by omega
  have b : ¬ 200 = i := by omega
  have c : ¬ i = 0 := by omega
  have d : ¬ i = 127 := by omega
  simp [given, a, b, c, d]

/-! ### C33 -/

/-- The number of a declaration in a list of declarations (`none` for the index: no `curve_index`): the explicit one when it
is allowed; otherwise the next number after the predefined curves and the previous unnumbered ones, unless a numbered one
came before. -/
def numberOf {C : Type} (predefined : Nat) (before : List (C × Int)) (index : Int) : Option Nat :=
  if 0 ≤ index ∧ index < 256 then some index.toNat
  else if index = -1 ∧ ∀ d ∈ before, ¬ (0 ≤ d.2 ∧ d.2 < 256) then
    some (predefined + (before.filter (fun d => d.2 = -1)).length)
  else none

/-- The curve of number `j` after declarations: the last one with this number, or the predefined one. -/
def curveOf {C : Type} (predefined : List C) (dflt : C) : List (C × Int) → Nat → C
  | [], j => predefined.getD j dflt
  | d :: before, j => if numberOf predefined.length before d.2 = some j then d.1 else curveOf predefined dflt before j

/-- The declarations in order, onto the predefined curves. -/
def declare {C : Type} (predefined : List C) (decls : List (C × Int)) : CurveSet C :=
  decls.foldl (fun s d => s.add d.1 d.2) { curves := predefined.map some }

/-- The state of the set after declarations (latest first). -/
structure SetInv {C : Type} (predefined : List C) (dflt : C) (before : List (C × Int)) (s : CurveSet C) : Prop where
  flag : s.explicit = true ↔ ∃ d ∈ before, 0 ≤ d.2 ∧ d.2 < 256
  len : s.explicit = false → s.curves.length = predefined.length + (before.filter (fun d => d.2 = -1)).length
  get : ∀ j, s.get dflt j = curveOf predefined dflt before j

theorem getElem?_pad {C : Type} (l : List (Option C)) (k j : Nat) :
    (l ++ List.replicate k none)[j]?.join = l[j]?.join := by
  rw [List.getElem?_append]
  by_cases h : j < l.length
  · rw [if_pos h]
  · rw [if_neg h, List.getElem?_eq_none (by omega : l.length ≤ j), List.getElem?_replicate]
    by_cases hk : j - l.length < k
    · rw [if_pos hk]; rfl
    · rw [if_neg hk]

theorem get_eq {C : Type} (dflt : C) (s : CurveSet C) (j : Nat) : s.get dflt j = (s.curves[j]?.join).getD dflt := by
  unfold CurveSet.get
  rcases s.curves[j]? with _ | _ | c <;> rfl

theorem setInv_add {C : Type} (predefined : List C) (dflt : C) (before : List (C × Int)) (s : CurveSet C)
    (h : SetInv predefined dflt before s) (d : C × Int) : SetInv predefined dflt (d :: before) (s.add d.1 d.2) := by
  obtain ⟨c, index⟩ := d
  obtain ⟨hf, hl, hg⟩ := h
  have hmax : maxCurves = 256 := rfl
  unfold CurveSet.add
  simp only [hmax]
  by_cases h1 : index < -1
  · rw [if_pos h1]
    refine ⟨by rw [hf]; simp only [List.mem_cons, exists_eq_or_imp]; constructor
               · exact Or.inr
               · rintro (hh | hh)
                 · omega
                 · exact hh, fun he => ?_, fun j => ?_⟩
    · rw [hl he, List.filter_cons_of_neg (by simp; omega)]
    · rw [hg j, curveOf, if_neg]
      unfold numberOf
      rw [if_neg (by omega), if_neg (by omega)]
      simp
  · rw [if_neg h1]
    by_cases h2 : index ≥ 256
    · rw [if_pos h2]
      refine ⟨by rw [hf]; simp only [List.mem_cons, exists_eq_or_imp]; constructor
                 · exact Or.inr
                 · rintro (hh | hh)
                   · omega
                   · exact hh, fun he => ?_, fun j => ?_⟩
      · rw [hl he, List.filter_cons_of_neg (by simp; omega)]
      · rw [hg j, curveOf, if_neg]
        unfold numberOf
        rw [if_neg (by omega), if_neg (by omega)]
        simp
    · rw [if_neg h2]
      by_cases h3 : index = -1
      · rw [if_pos h3]
        subst h3
        have hex : (∃ e ∈ (c, (-1 : Int)) :: before, 0 ≤ e.2 ∧ e.2 < 256) ↔ ∃ e ∈ before, 0 ≤ e.2 ∧ e.2 < 256 := by
          simp only [List.mem_cons, exists_eq_or_imp]
          constructor
          · rintro (hh | hh)
            · omega
            · exact hh
          · exact Or.inr
        by_cases he : s.explicit = true
        · rw [if_pos he]
          refine ⟨by rw [hex]; exact hf, fun hh => absurd hh (by rw [he]; simp), fun j => ?_⟩
          rw [hg j, curveOf, if_neg]
          unfold numberOf
          rw [if_neg (by omega), if_neg]
          · simp
          · rintro ⟨-, hh⟩
            obtain ⟨e, he1, he2⟩ := hf.mp he
            exact hh e he1 he2
        · rw [if_neg he]
          have he' : s.explicit = false := by simpa using he
          refine ⟨by rw [hex]; exact hf, fun _ => ?_, fun j => ?_⟩
          · rw [List.length_append, hl he', List.filter_cons_of_pos (by simp)]
            simp only [List.length_cons, List.length_nil]; omega
          · have hnum : numberOf predefined.length before (-1) = some s.curves.length := by
              unfold numberOf
              rw [if_neg (by omega), if_pos, hl he']
              refine ⟨rfl, fun e he1 he2 => he (hf.mpr ⟨e, he1, he2⟩)⟩
            rw [curveOf, hnum]
            unfold CurveSet.get
            by_cases hj : s.curves.length = j
            · subst hj
              simp
            · rw [if_neg (by simpa using hj), ← hg j]
              unfold CurveSet.get
              rw [List.getElem?_append]
              by_cases hlt : j < s.curves.length
              · rw [if_pos hlt]
              · rw [if_neg hlt, List.getElem?_eq_none (by omega : s.curves.length ≤ j),
                  List.getElem?_eq_none (by simp only [List.length_cons, List.length_nil]; omega)]
      · rw [if_neg h3]
        have hr : 0 ≤ index ∧ index < 256 := by omega
        refine ⟨?_, fun hh => absurd hh (by simp), fun j => ?_⟩
        · simp only [true_iff]
          exact ⟨_, List.mem_cons_self, hr⟩
        · have hnum : numberOf predefined.length before index = some index.toNat := by
            unfold numberOf; rw [if_pos hr]
          rw [curveOf, hnum, get_eq]
          simp only
          generalize hL : (if index.toNat ≥ s.curves.length then
            s.curves ++ List.replicate (index.toNat + 1 - s.curves.length) none else s.curves) = L
          have hlen : index.toNat < L.length := by
            subst hL
            split
            · simp only [List.length_append, List.length_replicate]; omega
            · omega
          rw [List.getElem?_set]
          by_cases hj : index.toNat = j
          · rw [if_pos hj, if_pos (by omega), if_pos (by rw [hj])]
            rfl
          · rw [if_neg hj, if_neg (by simpa using hj), ← hg j, get_eq]
            subst hL
            split
            · rw [getElem?_pad]
            · rfl

/-- C33: after any sequence of declarations, every number gives the curve last declared with this number, else the predefined
curve of this number, else the default curve. -/
theorem curve_numbering {C : Type} (predefined : List C) (dflt : C) (decls : List (C × Int)) (j : Nat) :
    (declare predefined decls).get dflt j = curveOf predefined dflt decls.reverse j := by
  have key : SetInv predefined dflt decls.reverse (declare predefined decls) := by
    induction decls using List.reverseRecOn with
    | nil =>
      refine ⟨by simp [declare], by simp [declare], fun j => ?_⟩
      rw [List.reverse_nil, curveOf, List.getD_eq_getElem?_getD]
      simp only [declare, CurveSet.get, List.foldl_nil, List.getElem?_map]
      cases predefined[j]? <;> rfl
    | append_singleton ds d ih =>
      unfold declare at ih ⊢
      rw [List.foldl_append, List.reverse_append]
      exact setInv_add predefined dflt _ _ ih d
  exact key.get j

/-- Declarations: two unnumbered, number 3 replaced, number 20, an unnumbered one (rejected), 300 (rejected). -/
example : (List.range 24).map ((declare ["p0", "p1", "p2", "p3"] [("a", -1), ("b", -1), ("c", 3), ("d", 20), ("e", 3), ("f", -1),
    ("g", 300)]).get "default") =
    ["p0", "p1", "p2", "e", "a", "b"] ++ List.replicate 14 "default" ++ ["d", "default", "default", "default"] := by decide +kernel

end Verif.Curve
