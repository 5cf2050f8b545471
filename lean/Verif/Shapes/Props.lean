import Verif.Shapes.Model
import Mathlib.Analysis.Convex.SpecificFunctions.Basic
import Mathlib.Tactic.Linarith
import Mathlib.Tactic.Ring
import Mathlib.Tactic.FieldSimp
import Mathlib.Tactic.Positivity

/-!
C143: the shapes of flexible envelopes.
-/
namespace Verif.Shapes

/-! ### Specification -/

/-- The shape asked for: straight for 0, a power for positive numbers, and the same curve turned around for negative ones. -/
noncomputable def ideal (shape x : ℝ) : ℝ := if 0 ≤ shape then x ^ (1 + shape) else 1 - (1 - x) ^ (1 - shape)

/-! ### Reading a table -/

theorem eval_rep (p : Table) {x mu : ℝ} {i : Nat} (hi : i < 127) (h0 : 0 ≤ mu) (h1 : mu ≤ 1) (h : x * 127 = i + mu) :
    evalNormalized p x = some ((1 - mu) * p i + mu * p (i + 1)) := by
  have hi' : (i : ℝ) + 1 ≤ 127 := by exact_mod_cast hi
  have hv : max (min (x * 127) 127) 0 = (i : ℝ) + mu := by
    rw [h, min_eq_left (by linarith), max_eq_left (by positivity)]
  unfold evalNormalized evalCC7
  simp only [hv]
  rw [if_pos (show (0 : ℝ) ≤ i + mu by positivity)]
  rcases lt_or_eq_of_le h1 with h1 | h1
  · have hf : ⌊(i : ℝ) + mu⌋ = (i : Int) := by
      rw [Int.floor_eq_iff]; constructor <;> push_cast <;> linarith
    simp only [hf]
    rw [if_pos ⟨by omega, by omega, by omega, by omega⟩, show (min 127 ((i : Int) + 1)).toNat = i + 1 by omega, Int.toNat_natCast]
    congr 1; push_cast; ring
  · subst h1
    have hf : ⌊(i : ℝ) + 1⌋ = (i : Int) + 1 := by
      rw [Int.floor_eq_iff]; constructor <;> push_cast <;> linarith
    simp only [hf]
    rw [if_pos ⟨by omega, by omega, by omega, by omega⟩, show ((i : Int) + 1).toNat = i + 1 by omega]
    congr 1; push_cast; ring

theorem rep_exists {x : ℝ} (h0 : 0 ≤ x) (h1 : x ≤ 1) : ∃ (i : Nat) (mu : ℝ), i < 127 ∧ 0 ≤ mu ∧ mu ≤ 1 ∧ x * 127 = i + mu := by
  rcases lt_or_eq_of_le h1 with h1 | h1
  · refine ⟨⌊x * 127⌋₊, x * 127 - ⌊x * 127⌋₊, ?_, ?_, ?_, by ring⟩
    · rw [Nat.floor_lt (by positivity)]; push_cast; linarith
    · linarith [Nat.floor_le (show 0 ≤ x * 127 by positivity)]
    · linarith [Nat.lt_floor_add_one (x * 127)]
  · exact ⟨126, 1, by norm_num, by norm_num, le_refl _, by rw [h1]; norm_num⟩

theorem eval_low (p : Table) {x : ℝ} (h : x ≤ 0) : evalNormalized p x = some (p 0) := by
  have hv : max (min (x * 127) 127) 0 = 0 := by
    rw [max_eq_right]; exact le_trans (min_le_left _ _) (by linarith)
  unfold evalNormalized evalCC7
  simp [hv]

theorem eval_high (p : Table) {x : ℝ} (h : 1 ≤ x) : evalNormalized p x = some (p 127) := by
  have hv : max (min (x * 127) 127) 0 = 127 := by
    rw [min_eq_right (by linarith), max_eq_left (by norm_num)]
  unfold evalNormalized evalCC7
  simp only [hv]
  have hf : ⌊(127 : ℝ)⌋ = 127 := by exact_mod_cast Int.floor_natCast (R := ℝ) 127
  norm_num [hf]
  rfl

/-! ### The tables -/

theorem build_ideal (s : ℝ) (i : Nat) : build s i = ideal s ((i : ℝ) / 127) := by
  unfold build ideal
  rcases lt_trichotomy s 0 with h | h | h
  · rw [if_neg (ne_of_lt h), if_neg (by linarith), if_neg (by linarith)]
  · subst h; simp
  · rw [if_neg (ne_of_gt h), if_pos h, if_pos h.le]

theorem ideal_mirror (s x : ℝ) (hs : s ≠ 0) : ideal (-s) x = 1 - ideal s (1 - x) := by
  unfold ideal
  rcases lt_or_gt_of_ne hs with h | h
  · rw [if_pos (by linarith), if_neg (by linarith)]; ring_nf
  · rw [if_neg (by linarith), if_pos h.le, sub_neg_eq_add]

theorem ideal_zero (x : ℝ) : ideal 0 x = x := by simp [ideal]

/-- Positive shapes. -/
theorem pos_facts {s : ℝ} (hs : 0 ≤ s) {x y : ℝ} (h0 : 0 ≤ x) (hxy : x ≤ y) (h1 : y ≤ 1) :
    0 ≤ ideal s x ∧ ideal s x ≤ x ∧ ideal s x ≤ ideal s y ∧ ideal s y - ideal s x ≤ (1 + s) * (y - x) := by
  have e : ∀ z, ideal s z = z ^ (1 + s) := fun z => by rw [ideal, if_pos hs]
  rw [e, e]
  have hx1 : x ≤ 1 := hxy.trans h1
  refine ⟨Real.rpow_nonneg h0 _, ?_, Real.rpow_le_rpow h0 hxy (by linarith), ?_⟩
  · calc x ^ (1 + s) ≤ x ^ (1 : ℝ) := Real.rpow_le_rpow_of_exponent_ge_of_imp h0 hx1 (by linarith) (by intro _ h; linarith)
      _ = x := Real.rpow_one x
  · rcases (h0.trans hxy).eq_or_lt with hy | hy
    · have : x = 0 := le_antisymm (by linarith) h0
      rw [this, ← hy]; simp
    · have hb := one_add_mul_self_le_rpow_one_add (s := (x - y) / y) (p := 1 + s) (by rw [le_div_iff₀ hy]; linarith) (by linarith)
      have hx : x = y * (1 + (x - y) / y) := by field_simp; ring
      have hn : 0 ≤ 1 + (x - y) / y := by
        have : -1 ≤ (x - y) / y := by rw [le_div_iff₀ hy]; linarith
        linarith
      have hxp : x ^ (1 + s) = y ^ (1 + s) * (1 + (x - y) / y) ^ (1 + s) := by
        conv_lhs => rw [hx]
        rw [Real.mul_rpow hy.le hn]
      have hyp : y ^ (1 + s) ≤ y := by
        calc y ^ (1 + s) ≤ y ^ (1 : ℝ) := Real.rpow_le_rpow_of_exponent_ge_of_imp hy.le h1 (by linarith) (by intro _ h; linarith)
          _ = y := Real.rpow_one y
      have hy0 : 0 ≤ y ^ (1 + s) := Real.rpow_nonneg hy.le _
      rw [hxp]
      have h2 : y ^ (1 + s) - y ^ (1 + s) * (1 + (x - y) / y) ^ (1 + s) ≤ y ^ (1 + s) * ((1 + s) * ((y - x) / y)) := by
        have : (x - y) / y = -((y - x) / y) := by ring
        rw [this] at hb ⊢
        nlinarith
      have h3 : 0 ≤ (1 + s) * ((y - x) / y) := by
        apply mul_nonneg (by linarith); apply div_nonneg <;> linarith
      calc _ ≤ y ^ (1 + s) * ((1 + s) * ((y - x) / y)) := h2
        _ ≤ y * ((1 + s) * ((y - x) / y)) := mul_le_mul_of_nonneg_right hyp h3
        _ = (1 + s) * (y - x) := by field_simp

/-- All shapes: the curve is between 0 and 1, increasing, and not steeper than one more than the size of the shape. -/
theorem ideal_facts (s : ℝ) {x y : ℝ} (h0 : 0 ≤ x) (hxy : x ≤ y) (h1 : y ≤ 1) :
    0 ≤ ideal s x ∧ ideal s y ≤ 1 ∧ ideal s x ≤ ideal s y ∧ ideal s y - ideal s x ≤ (1 + |s|) * (y - x) := by
  rcases le_or_gt 0 s with h | h
  · obtain ⟨a, b, c, d⟩ := pos_facts h h0 hxy h1
    obtain ⟨_, b', _, _⟩ := pos_facts h (h0.trans hxy) (le_refl y) h1
    rw [abs_of_nonneg h]
    exact ⟨a, b'.trans h1, c, d⟩
  · have m : ∀ z, ideal s z = 1 - ideal (-s) (1 - z) := fun z => by
      have := ideal_mirror (-s) z (by linarith)
      rwa [neg_neg] at this
    obtain ⟨a, b, c, d⟩ := pos_facts (s := -s) (x := 1 - y) (y := 1 - x) (by linarith) (by linarith) (by linarith) (by linarith)
    obtain ⟨a', b', _, _⟩ := pos_facts (s := -s) (x := 1 - x) (y := 1 - x) (by linarith) (by linarith) (le_refl _) (by linarith)
    rw [m x, m y, abs_of_neg h]
    refine ⟨by linarith, by linarith, by linarith, by linarith⟩

theorem grid_le {i : Nat} (hi : i < 127) : (0 : ℝ) ≤ (i : ℝ) / 127 ∧ (i : ℝ) / 127 ≤ ((i + 1 : Nat) : ℝ) / 127 ∧ ((i + 1 : Nat) : ℝ) / 127 ≤ 1 := by
  have : ((i + 1 : Nat) : ℝ) ≤ 127 := by exact_mod_cast hi
  refine ⟨by positivity, by gcongr; omega, by rw [div_le_one (by norm_num)]; exact this⟩

/-- What is read of a shape. -/
theorem shape_rep (s : ℝ) {x : ℝ} (h0 : 0 ≤ x) (h1 : x ≤ 1) : ∃ (i : Nat) (mu : ℝ), i < 127 ∧ 0 ≤ mu ∧ mu ≤ 1 ∧ x * 127 = i + mu ∧
    evalNormalized (build s) x = some ((1 - mu) * ideal s ((i : ℝ) / 127) + mu * ideal s (((i + 1 : Nat) : ℝ) / 127)) := by
  obtain ⟨i, mu, hi, a, b, c⟩ := rep_exists h0 h1
  refine ⟨i, mu, hi, a, b, c, ?_⟩
  rw [eval_rep _ hi a b c, build_ideal s, build_ideal s]

/-! ### Theorems -/

/-- **A stage begins at its source and ends at its target**, whatever its shape: before the stage the curve is at 0, after it at 1. -/
theorem shape_ends (s : ℝ) {x : ℝ} : (x ≤ 0 → evalNormalized (build s) x = some 0) ∧ (1 ≤ x → evalNormalized (build s) x = some 1) := by
  constructor <;> intro h
  · rw [eval_low _ h, build_ideal s]
    unfold ideal
    split
    · rw [Nat.cast_zero, zero_div, Real.zero_rpow (by linarith)]
    · simp
  · rw [eval_high _ h, build_ideal s]
    unfold ideal
    split
    · simp
    · rename_i h
      push Not at h
      rw [show (1 : ℝ) - ((127 : Nat) : ℝ) / 127 = 0 by norm_num, Real.zero_rpow (by linarith), sub_zero]

/-- **The curve of a stage has the shape asked for**: it is off by one step of the table at most. -/
theorem shape_near (s : ℝ) {x : ℝ} (h0 : 0 ≤ x) (h1 : x ≤ 1) :
    ∃ y, evalNormalized (build s) x = some y ∧ |y - ideal s x| ≤ (1 + |s|) / 127 := by
  obtain ⟨i, mu, hi, a, b, c, e⟩ := shape_rep s h0 h1
  refine ⟨_, e, ?_⟩
  obtain ⟨g0, g1, g2⟩ := grid_le hi
  have hx : x = (i : ℝ) / 127 + mu / 127 := by rw [← add_div, ← c]; field_simp
  have hi1 : ((i + 1 : Nat) : ℝ) / 127 = (i : ℝ) / 127 + 1 / 127 := by push_cast; ring
  have q0 : 0 ≤ mu / 127 := by positivity
  have q1 : mu / 127 ≤ 1 / 127 := by gcongr
  have x0 : (i : ℝ) / 127 ≤ x := by rw [hx]; linarith
  have x1 : x ≤ ((i + 1 : Nat) : ℝ) / 127 := by rw [hx, hi1]; linarith
  obtain ⟨_, _, l, _⟩ := ideal_facts s g0 x0 h1
  obtain ⟨_, _, u, _⟩ := ideal_facts s h0 x1 g2
  obtain ⟨_, _, m, d⟩ := ideal_facts s g0 g1 g2
  rw [hi1, add_sub_cancel_left, mul_one_div] at d
  rw [← hi1] at d
  rw [abs_le]
  constructor <;> nlinarith

/-- **The level never turns back within a stage.** -/
theorem shape_monotone (s : ℝ) {x y : ℝ} (h : x ≤ y) :
    ∃ a b, evalNormalized (build s) x = some a ∧ evalNormalized (build s) y = some b ∧ a ≤ b ∧ 0 ≤ a ∧ b ≤ 1 := by
  have bounds : ∀ z : ℝ, ∃ a, evalNormalized (build s) z = some a ∧ 0 ≤ a ∧ a ≤ 1 := by
    intro z
    rcases le_total z 0 with hz | hz
    · exact ⟨0, (shape_ends s).1 hz, le_refl _, by norm_num⟩
    · rcases le_total 1 z with hz1 | hz1
      · exact ⟨1, (shape_ends s).2 hz1, by norm_num, le_refl _⟩
      · obtain ⟨i, mu, hi, a, b, c, e⟩ := shape_rep s hz hz1
        obtain ⟨g0, g1, g2⟩ := grid_le hi
        obtain ⟨p0, p1, p2, _⟩ := ideal_facts s g0 g1 g2
        exact ⟨_, e, by nlinarith, by nlinarith⟩
  obtain ⟨a, ea, a0, a1⟩ := bounds x
  obtain ⟨b, eb, b0, b1⟩ := bounds y
  refine ⟨a, b, ea, eb, ?_, a0, b1⟩
  rcases le_total x 0 with hx | hx
  · rw [(shape_ends s).1 hx] at ea
    cases ea; exact b0
  · rcases le_total 1 y with hy | hy
    · rw [(shape_ends s).2 hy] at eb
      cases eb; exact a1
    · obtain ⟨i, mu, hi, m0, m1, c, e⟩ := shape_rep s hx (h.trans hy)
      obtain ⟨j, nu, hj, n0, n1, c', e'⟩ := shape_rep s (hx.trans h) hy
      rw [e] at ea; rw [e'] at eb
      cases ea; cases eb
      have hij : (i : ℝ) + mu ≤ j + nu := by rw [← c, ← c']; linarith
      obtain ⟨g0, g1, g2⟩ := grid_le hi
      obtain ⟨k0, k1, k2⟩ := grid_le hj
      obtain ⟨_, _, pi, _⟩ := ideal_facts s g0 g1 g2
      obtain ⟨_, _, pj, _⟩ := ideal_facts s k0 k1 k2
      rcases lt_trichotomy i j with hlt | heq | hgt
      · have : ((i + 1 : Nat) : ℝ) / 127 ≤ (j : ℝ) / 127 := by gcongr; omega
        obtain ⟨_, _, pij, _⟩ := ideal_facts s (g0.trans g1) this (k1.trans k2)
        nlinarith
      · subst heq
        have : mu ≤ nu := by linarith
        nlinarith
      · have h1 : (j : ℝ) + 1 ≤ i := by exact_mod_cast hgt
        have hmu : mu = 0 := by linarith
        have hnu : nu = 1 := by linarith
        have : i = j + 1 := by
          have : (i : ℝ) = ((j + 1 : Nat) : ℝ) := by push_cast; linarith
          exact_mod_cast this
        subst this
        rw [hmu, hnu]; linarith

/-- **Positive shapes stay below the straight line, and above the curve asked for; negative ones above it.** -/
theorem shape_side (s : ℝ) {x : ℝ} (h0 : 0 ≤ x) (h1 : x ≤ 1) : ∃ y, evalNormalized (build s) x = some y ∧
    (0 ≤ s → ideal s x ≤ y ∧ y ≤ x) ∧ (s ≤ 0 → x ≤ y ∧ y ≤ ideal s x) := by
  have posCase : ∀ (s : ℝ), 0 ≤ s → ∀ {x : ℝ}, 0 ≤ x → x ≤ 1 → ∀ {i : Nat} {mu : ℝ}, i < 127 → 0 ≤ mu → mu ≤ 1 → x * 127 = i + mu →
      ideal s x ≤ (1 - mu) * ideal s ((i : ℝ) / 127) + mu * ideal s (((i + 1 : Nat) : ℝ) / 127) ∧
      (1 - mu) * ideal s ((i : ℝ) / 127) + mu * ideal s (((i + 1 : Nat) : ℝ) / 127) ≤ x := by
    intro s hs x h0 h1 i mu hi a b c
    obtain ⟨g0, g1, g2⟩ := grid_le hi
    have hx : x = (1 - mu) * ((i : ℝ) / 127) + mu * (((i + 1 : Nat) : ℝ) / 127) := by
      push_cast
      have : x = (i + mu) / 127 := by rw [← c]; field_simp
      rw [this]; ring
    have e : ∀ z, ideal s z = z ^ (1 + s) := fun z => by rw [ideal, if_pos hs]
    constructor
    · have hc := (convexOn_rpow (p := 1 + s) (by linarith)).2 (x := (i : ℝ) / 127) g0 (y := ((i + 1 : Nat) : ℝ) / 127) (g0.trans g1)
        (show 0 ≤ 1 - mu by linarith) a (by ring)
      simp only [smul_eq_mul] at hc
      rw [← hx] at hc
      rw [e, e, e]
      exact hc
    · obtain ⟨_, l1, _, _⟩ := pos_facts hs g0 (le_refl _) (g1.trans g2)
      obtain ⟨_, l2, _, _⟩ := pos_facts hs (g0.trans g1) (le_refl _) g2
      rw [hx]
      have := mul_le_mul_of_nonneg_left l1 (show 0 ≤ 1 - mu by linarith)
      have := mul_le_mul_of_nonneg_left l2 a
      linarith
  obtain ⟨i, mu, hi, a, b, c, e⟩ := shape_rep s h0 h1
  refine ⟨_, e, fun hs => posCase s hs h0 h1 hi a b c, fun hs => ?_⟩
  rcases hs.eq_or_lt with hs | hs
  · subst hs
    simp only [ideal_zero]
    have : x = (i + mu) / 127 := by rw [← c]; field_simp
    rw [this]; push_cast
    constructor <;> apply le_of_eq <;> ring
  · have m : ∀ z, ideal s z = 1 - ideal (-s) (1 - z) := fun z => by
      have := ideal_mirror (-s) z (by linarith)
      rwa [neg_neg] at this
    have hi2 : ((126 - i : Nat) : ℝ) = 126 - i := by rw [Nat.cast_sub (by omega)]; norm_num
    have c' : (1 - x) * 127 = ((126 - i : Nat) : ℝ) + (1 - mu) := by rw [hi2]; linarith
    have r := posCase (-s) (by linarith) (show 0 ≤ 1 - x by linarith) (by linarith) (show 126 - i < 127 by omega) (show 0 ≤ 1 - mu by linarith)
      (by linarith) c'
    have e1 : ((126 - i : Nat) : ℝ) / 127 = 1 - ((i + 1 : Nat) : ℝ) / 127 := by rw [hi2]; push_cast; ring
    have e2 : ((126 - i + 1 : Nat) : ℝ) / 127 = 1 - (i : ℝ) / 127 := by rw [Nat.cast_add, hi2]; push_cast; ring
    rw [e1, e2] at r
    rw [m x, m ((i : ℝ) / 127), m (((i + 1 : Nat) : ℝ) / 127)]
    constructor <;> linarith [r.1, r.2]

example : ∃ y, evalNormalized (build 1) (1/3) = some y ∧ |y - 1/9| ≤ 2/127 := by
  obtain ⟨y, h, b⟩ := shape_near 1 (x := 1/3) (by norm_num) (by norm_num)
  refine ⟨y, h, ?_⟩
  have : ideal 1 (1/3) = 1/9 := by
    unfold ideal
    rw [if_pos (by norm_num), show (1 : ℝ) + 1 = ((2 : ℕ) : ℝ) by norm_num, Real.rpow_natCast]; norm_num
  rw [this] at b
  norm_num at b ⊢
  exact b

/-! ### The curves that points share -/

/-- The shapes that points should have after a history: the last one set, with the copies and removals; `none` for a point never given one. -/
noncomputable def asked (l : List (Option ℝ)) : Op → List (Option ℝ)
  | .make => l ++ [none]
  | .copy i =>
    match (l[i]?) with
    | none => l
    | some v => l ++ [v]
  | .setShape i x => l.set i (some x)
  | .destroy i => l.eraseIdx i
  | .clear => l

/-- What holds throughout: each point has the shape asked for, with a curve made for it that is the one of the map; the map leads to curves
made for the shape. -/
structure Ok (s : State) (l : List (Option ℝ)) : Prop where
  points : s.points.map (fun p => (p.shape, p.curve.isSome)) = l.map (fun o => (o.getD 0, o.isSome))
  mapped : ∀ p ∈ s.points, ∀ id, p.curve = some id → s.map p.shape = some id
  built : ∀ x id, s.map x = some id → s.made[id]? = some (build x)
  apart : ∀ x y id, s.map x = some id → s.map y = some id → x = y

theorem ok_new : Ok State.new [] := ⟨rfl, by simp [State.new], by simp [State.new], by simp [State.new]⟩

theorem get_shape {s : State} {l} (h : Ok s l) (x : ℝ) : ∃ id,
    (getShapeCurve s x).1 = id ∧ (getShapeCurve s x).2.points = s.points ∧ Ok (getShapeCurve s x).2 l ∧ (getShapeCurve s x).2.map x = some id := by
  have fresh : ∀ (_ : ∀ id, s.map x = some id → ¬ s.held id),
      Ok { s with map := Function.update s.map x (some s.made.length), made := s.made ++ [build x] } l := by
    intro hn
    have small : ∀ y id, s.map y = some id → id < s.made.length := fun y id hy => (List.getElem?_eq_some_iff.mp (h.built y id hy)).1
    refine ⟨h.points, ?_, ?_, ?_⟩
    · intro p hp id hid
      have hm := h.mapped p hp id hid
      simp only
      by_cases hx : p.shape = x
      · rw [hx] at hm
        exact absurd ⟨p, hp, hid⟩ (hn id hm)
      · rw [Function.update_of_ne hx]; exact hm
    · intro y id hy
      simp only at hy ⊢
      by_cases hx : y = x
      · subst hx
        rw [Function.update_self] at hy
        cases hy
        simp
      · rw [Function.update_of_ne hx] at hy
        have := h.built y id hy
        rw [List.getElem?_append_left]
        · exact this
        · exact (List.getElem?_eq_some_iff.mp this).1
    · intro y z id hy hz
      simp only at hy hz
      by_cases h1 : y = x <;> by_cases h2 : z = x
      · rw [h1, h2]
      · subst h1
        rw [Function.update_self] at hy
        rw [Function.update_of_ne h2] at hz
        cases hy
        exact absurd (small z _ hz) (lt_irrefl _)
      · subst h2
        rw [Function.update_self] at hz
        rw [Function.update_of_ne h1] at hy
        cases hz
        exact absurd (small y _ hy) (lt_irrefl _)
      · rw [Function.update_of_ne h1] at hy
        rw [Function.update_of_ne h2] at hz
        exact h.apart y z id hy hz
  unfold getShapeCurve
  cases hm : s.map x with
  | none => exact ⟨_, rfl, rfl, fresh (by simp [hm]), by simp⟩
  | some id =>
    simp only
    by_cases hh : s.held id
    · rw [if_pos hh]; exact ⟨_, rfl, rfl, h, hm⟩
    · rw [if_neg hh]
      exact ⟨_, rfl, rfl, fresh (by intro i hi; rw [hm] at hi; cases hi; exact hh), by simp⟩

theorem ok_step {s : State} {l} (h : Ok s l) (op : Op) : Ok (step s op) (asked l op) := by
  have hlen : s.points.length = l.length := by simpa using congrArg List.length h.points
  cases op with
  | make =>
    refine ⟨by simp [step, asked, h.points], ?_, h.built, h.apart⟩
    intro p hp id hid
    simp only [step, List.mem_append, List.mem_singleton] at hp
    rcases hp with hp | hp
    · exact h.mapped p hp id hid
    · subst hp; simp at hid
  | copy i =>
    simp only [step, asked]
    by_cases hi : i < l.length
    · have hi' : i < s.points.length := by omega
      rw [List.getElem?_eq_getElem hi, List.getElem?_eq_getElem hi']
      refine ⟨?_, ?_, h.built, h.apart⟩
      · have e := congrArg (fun k => k[i]?) h.points
        simp only [List.getElem?_map, List.getElem?_eq_getElem hi, List.getElem?_eq_getElem hi', Option.map_some, Option.some.injEq] at e
        simp only [List.map_append, List.map_cons, List.map_nil, h.points, e]
      · intro p hp id hid
        simp only [List.mem_append, List.mem_singleton] at hp
        rcases hp with hp | hp
        · exact h.mapped p hp id hid
        · exact h.mapped p (hp ▸ List.getElem_mem hi') id hid
    · rw [List.getElem?_eq_none (by omega), List.getElem?_eq_none (by omega)]; exact h
  | setShape i x =>
    simp only [step, asked]
    by_cases hi : i < s.points.length
    · rw [if_pos hi]
      obtain ⟨id, e1, e2, ok, e3⟩ := get_shape h x
      refine ⟨?_, ?_, ok.built, ok.apart⟩
      · simp only [e1, e2, List.map_set, h.points, Option.isSome_some, Option.getD_some]
      · intro p hp id' hid
        simp only at hp ⊢
        rcases List.mem_or_eq_of_mem_set hp with hp | hp
        · exact ok.mapped p hp id' hid
        · subst hp
          simp only [e1, Option.some.injEq] at hid ⊢
          rw [← hid]; exact e3
    · rw [if_neg hi, List.set_eq_of_length_le (by omega)]; exact h
  | destroy i =>
    refine ⟨?_, ?_, h.built, h.apart⟩
    · simp only [step, asked, ← List.eraseIdx_map, h.points]
    · intro p hp id hid
      exact h.mapped p (List.mem_of_mem_eraseIdx hp) id hid
  | clear =>
    refine ⟨h.points, ?_, ?_, ?_⟩
    · intro p hp id hid
      simp only [step, h.mapped p hp id hid, Option.bind_some]
      rw [if_pos ⟨p, hp, hid⟩]
    · intro x id hx
      simp only [step, Option.bind_eq_some_iff] at hx
      obtain ⟨id', a, b⟩ := hx
      split at b
      · cases b; exact h.built x _ a
      · cases b
    · intro x y id hx hy
      simp only [step, Option.bind_eq_some_iff] at hx hy
      obtain ⟨i, a, b⟩ := hx
      obtain ⟨j, c, d⟩ := hy
      split at b
      · split at d
        · cases b; cases d; exact h.apart x y _ a c
        · cases d
      · cases b

theorem ok_run (ops : List Op) : ∀ {s : State} {l}, Ok s l → Ok (run s ops) (ops.foldl asked l) := by
  induction ops with
  | nil => intro s l h; exact h
  | cons o t ih => intro s l h; exact ih (ok_step h o)

/-- **Each point follows the curve of the shape it was last given**, whichever points were shaped, copied or destroyed before, and
whenever the curves out of use were thrown away: the shape is the one asked for, and the curve read is the one of that shape, the straight line when none was given. -/
theorem shape_of_point (ops : List Op) : (run State.new ops).points.length = (ops.foldl asked []).length ∧
    ∀ (i : Nat) (p : Point), (run State.new ops).points[i]? = some p → ∃ o : Option ℝ, (ops.foldl asked [])[i]? = some o ∧ p.shape = o.getD 0 ∧
      curve (run State.new ops) p = some (build (o.getD 0)) := by
  have h := ok_run ops ok_new
  refine ⟨by simpa using congrArg List.length h.points, ?_⟩
  intro i p hp
  have e := congrArg (fun k => k[i]?) h.points
  simp only [List.getElem?_map, hp, Option.map_some] at e
  obtain ⟨o, ho, eo⟩ := Option.map_eq_some_iff.mp e.symm
  simp only [Prod.mk.injEq] at eo
  refine ⟨o, ho, eo.1.symm, ?_⟩
  unfold curve
  cases hc : p.curve with
  | some id => rw [eo.1]; exact h.built _ _ (h.mapped p (List.mem_of_getElem? hp) id hc)
  | none =>
    rw [hc] at eo
    have : o = none := by simpa using eo.2
    subst this; rfl

/-- **Points of the same shape share one curve.** -/
theorem shapes_shared (ops : List Op) (p q : Point) (hp : p ∈ (run State.new ops).points) (hq : q ∈ (run State.new ops).points)
    (e : p.shape = q.shape) (h1 : p.curve.isSome) (h2 : q.curve.isSome) : p.curve = q.curve := by
  have h := ok_run ops ok_new
  obtain ⟨a, ha⟩ := Option.isSome_iff_exists.mp h1
  obtain ⟨b, hb⟩ := Option.isSome_iff_exists.mp h2
  have m1 := h.mapped p hp a ha
  have m2 := h.mapped q hq b hb
  rw [ha, hb, ← m1, ← m2, e]

/-- **After the cleaning at the end of a loading only the curves in use are kept.** -/
theorem shapes_cleared (ops : List Op) (x : ℝ) (id : Nat) (hx : (step (run State.new ops) .clear).map x = some id) :
    ∃ r ∈ (run State.new ops).points, r.shape = x ∧ r.curve = some id := by
  have h := ok_run ops ok_new
  simp only [step, Option.bind_eq_some_iff] at hx
  obtain ⟨id', a, b⟩ := hx
  split at b
  · rename_i hh
    cases b
    obtain ⟨r, hr, hrc⟩ := hh
    exact ⟨r, hr, h.apart _ _ _ (h.mapped r hr _ hrc) a, hrc⟩
  · cases b

/-- Two points with shape 2, one of which is reshaped, one destroyed, and a cleaning. -/
example : ([Op.make, .make, .setShape 0 2, .setShape 1 2, .copy 0, .setShape 0 (-1), .destroy 1, .clear].foldl asked []) = [some (-1), some 2] := by
  simp [asked]

end Verif.Shapes
