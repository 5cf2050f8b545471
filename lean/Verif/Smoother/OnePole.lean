import Mathlib.Algebra.Order.Field.Rat
import Mathlib.Tactic.Linarith
import Mathlib.Tactic.Ring
import Mathlib.Tactic.FieldSimp
import Mathlib.Tactic.Positivity
import Mathlib.Data.List.Induction

/-!
# One-pole smoothing (C72)

Model of `OnePoleFilter` (`src/sfizz/OnePoleFilter.h`) and `OnePoleSmoother` (`src/sfizz/Smoothers.cpp:19-66`). Numbers are exact.
The gain, a tangent computed by `setSmoothing`, is a parameter.
-/
namespace Verif.OnePole

/-- The members `state` and `G` (OnePoleFilter.h:111-112). -/
structure Filter where
  state : ℚ
  G : ℚ
  deriving DecidableEq

/-- `setGain` (OnePoleFilter.h:30-33). -/
def Filter.setGain (f : Filter) (gain : ℚ) : Filter := { f with G := gain / (1 + gain) }

/-- `tickLowpass` (OnePoleFilter.h:97-103). -/
def tickLowpass (f : Filter) (input : ℚ) : ℚ × Filter :=
  let intermediate := f.G * (input - f.state)
  let output := intermediate + f.state
  (output, { f with state := output + intermediate })

/-- `tickHighpass` (OnePoleFilter.h:89-95). -/
def tickHighpass (f : Filter) (input : ℚ) : ℚ × Filter :=
  let intermediate := f.G * (input - f.state)
  let output := input - intermediate - f.state
  (output, { f with state := f.state + 2 * intermediate })

/-- `processLowpass` (OnePoleFilter.h:59-64). -/
def processLowpass (f : Filter) : List ℚ → List ℚ × Filter
  | [] => ([], f)
  | x :: xs =>
    let (y, f) := tickLowpass f x
    let (ys, f) := processLowpass f xs
    (y :: ys, f)

/-- The members of `OnePoleSmoother`: `smoothing`, `filter`, `target_` (Smoothers.h:52-54). -/
structure Smoother where
  smoothing : Bool
  filter : Filter
  target : ℚ
  deriving DecidableEq

/-- `OnePoleSmoother::setSmoothing` (Smoothers.cpp:23-29); `gain` is the tangent. -/
def Smoother.setSmoothing (s : Smoother) (smoothValue : Nat) (gain : ℚ) : Smoother :=
  let s := { s with smoothing := decide (smoothValue > 0) }
  if s.smoothing then { s with filter := s.filter.setGain gain } else s

/-- `OnePoleSmoother::reset` (Smoothers.cpp:31-35). -/
def Smoother.reset (s : Smoother) (value : ℚ) : Smoother := { s with filter := { s.filter with state := value }, target := value }

/-- `OnePoleSmoother::process` (Smoothers.cpp:42-66). `eps` and `threshold` are `virtuallyZero` and `smoothingShortcutThreshold`
(Config.h:50, 129). The copies are the same whether or not input and output share memory. -/
def Smoother.process (eps threshold : ℚ) (s : Smoother) (input : List ℚ) (canShortcut : Bool) : List ℚ × Smoother :=
  match input with
  | [] => ([], s)
  | first :: _ =>
    let last := input.getLastD 0
    let rel := |first - s.filter.state| / (|first| + eps)
    if canShortcut && decide (rel < threshold) then (input, { s with filter := { s.filter with state := last }, target := last })
    else if s.smoothing then
      let (out, f) := processLowpass s.filter input
      (out, { s with filter := f, target := last })
    else (input, { s with target := last })

/-- `OnePoleSmoother::resetToTarget` (Smoothers.cpp:37-40). -/
def Smoother.resetToTarget (s : Smoother) : Smoother := s.reset s.target

/-! ### Specification -/

/-- Values between the bounds. -/
def Within (low high : ℚ) (x : ℚ) : Prop := low ≤ x ∧ x ≤ high

/-! ### Filter -/

theorem coefficient {f : Filter} {gain : ℚ} (h0 : 0 ≤ gain) (h1 : gain ≤ 1) : 0 ≤ (f.setGain gain).G ∧ 2 * (f.setGain gain).G ≤ 1 := by
  have : (0 : ℚ) < 1 + gain := by linarith
  simp only [Filter.setGain]
  refine ⟨by positivity, ?_⟩
  rw [← mul_div_assoc, div_le_one this]
  linarith

theorem lowpass_G (f : Filter) (xs : List ℚ) : (processLowpass f xs).2.G = f.G := by
  induction xs generalizing f with
  | nil => rfl
  | cons x xs ih => simp only [processLowpass]; rw [ih]; rfl

theorem lowpass_length (f : Filter) (xs : List ℚ) : (processLowpass f xs).1.length = xs.length := by
  induction xs generalizing f with
  | nil => rfl
  | cons x xs ih => simp only [processLowpass, List.length_cons, ih]

/-- Filtering in two blocks is filtering in one. -/
theorem lowpass_split (f : Filter) (xs ys : List ℚ) :
    processLowpass f (xs ++ ys) =
      ((processLowpass f xs).1 ++ (processLowpass (processLowpass f xs).2 ys).1, (processLowpass (processLowpass f xs).2 ys).2) := by
  induction xs generalizing f with
  | nil => rfl
  | cons x xs ih => simp only [List.cons_append, processLowpass, ih]

theorem tick_within {f : Filter} {low high x : ℚ} (g0 : 0 ≤ f.G) (g1 : 2 * f.G ≤ 1) (hs : Within low high f.state) (hx : Within low high x) :
    Within low high (tickLowpass f x).1 ∧ Within low high (tickLowpass f x).2.state := by
  obtain ⟨a1, a2⟩ := hs
  obtain ⟨b1, b2⟩ := hx
  have e1 : (tickLowpass f x).1 = (1 - f.G) * f.state + f.G * x := by simp only [tickLowpass]; ring
  have e2 : (tickLowpass f x).2.state = (1 - 2 * f.G) * f.state + 2 * f.G * x := by simp only [tickLowpass]; ring
  rw [e1, e2]
  refine ⟨⟨?_, ?_⟩, ⟨?_, ?_⟩⟩ <;> nlinarith

theorem lowpass_within {low high : ℚ} (xs : List ℚ) (f : Filter) (g0 : 0 ≤ f.G) (g1 : 2 * f.G ≤ 1) (hs : Within low high f.state)
    (hx : ∀ x ∈ xs, Within low high x) :
    (∀ y ∈ (processLowpass f xs).1, Within low high y) ∧ Within low high (processLowpass f xs).2.state := by
  induction xs generalizing f with
  | nil => exact ⟨by simp [processLowpass], hs⟩
  | cons x xs ih =>
    obtain ⟨h1, h2⟩ := tick_within g0 g1 hs (hx x (by simp))
    obtain ⟨q1, q2⟩ := ih (tickLowpass f x).2 g0 g1 h2 (fun y hy => hx y (by simp [hy]))
    simp only [processLowpass]
    refine ⟨fun y hy => ?_, q2⟩
    rcases List.mem_cons.mp hy with rfl | hy
    · exact h1
    · exact q1 y hy

/-- Towards a constant target, the distance of output `k` is the first distance times the `k`-th power of `1 - 2G`. -/
theorem lowpass_constant (f : Filter) (v : ℚ) (n : Nat) :
    (processLowpass f (List.replicate n v)).1 = (List.range n).map (fun k => v + (1 - f.G) * (1 - 2 * f.G) ^ k * (f.state - v)) ∧
      (processLowpass f (List.replicate n v)).2.state = v + (1 - 2 * f.G) ^ n * (f.state - v) := by
  induction n generalizing f with
  | zero => simp [processLowpass]
  | succ n ih =>
    have e2 : (tickLowpass f v).2.state - v = (1 - 2 * f.G) * (f.state - v) := by simp only [tickLowpass]; ring
    have eG : (tickLowpass f v).2.G = f.G := rfl
    obtain ⟨i1, i2⟩ := ih (tickLowpass f v).2
    rw [e2, eG] at i1 i2
    simp only [List.replicate_succ, processLowpass, i1, i2, List.range_succ_eq_map, List.map_cons, List.map_map, List.cons.injEq]
    refine ⟨⟨by simp only [tickLowpass]; ring, ?_⟩, by ring⟩
    apply List.map_congr_left
    intro k _
    simp only [Function.comp, Nat.succ_eq_add_one, pow_succ]
    ring

/-! ### Properties -/

/-- The settings of a smoother that has been set up with a gain between 0 and 1. -/
def Good (s : Smoother) : Prop := 0 ≤ s.filter.G ∧ 2 * s.filter.G ≤ 1

theorem process_good {eps threshold : ℚ} {s : Smoother} {input : List ℚ} {sc : Bool} (h : Good s) : Good (s.process eps threshold input sc).2 := by
  unfold Smoother.process
  split
  · exact h
  · simp only
    split_ifs
    · exact h
    · exact ⟨by rw [lowpass_G]; exact h.1, by rw [lowpass_G]; exact h.2⟩
    · exact h

/-- A run over blocks. -/
def run (eps threshold : ℚ) : Smoother → List (List ℚ × Bool) → List ℚ × Smoother
  | s, [] => ([], s)
  | s, b :: bs =>
    let (out, s) := s.process eps threshold b.1 b.2
    let (out', s) := run eps threshold s bs
    (out ++ out', s)

theorem process_within {eps threshold low high : ℚ} {s : Smoother} {input : List ℚ} {sc : Bool} (h : Good s)
    (hs : Within low high s.filter.state) (hx : ∀ x ∈ input, Within low high x) :
    (∀ y ∈ (s.process eps threshold input sc).1, Within low high y) ∧ Within low high (s.process eps threshold input sc).2.filter.state := by
  unfold Smoother.process
  split
  · exact ⟨by simp, hs⟩
  · rename_i first rest
    simp only
    split_ifs
    · refine ⟨hx, ?_⟩
      have : (first :: rest).getLastD 0 ∈ first :: rest := by
        rw [← List.getLast_eq_getLastD (by simp)]
        exact List.getLast_mem _
      exact hx _ this
    · exact lowpass_within _ _ h.1 h.2 hs hx
    · exact ⟨hx, hs⟩

/-- Whatever the blocks, smoothed values stay between the bounds of the start value and the inputs: no overshoot. -/
theorem one_pole_stays_between {eps threshold low high : ℚ} (bs : List (List ℚ × Bool)) (s : Smoother) (n : Nat) (gain v0 : ℚ)
    (h0 : 0 ≤ gain) (h1 : gain ≤ 1) (hn : 0 < n) (hv : Within low high v0) (hx : ∀ b ∈ bs, ∀ x ∈ b.1, Within low high x) :
    ∀ y ∈ (run eps threshold ((s.setSmoothing n gain).reset v0) bs).1, Within low high y := by
  have hg : Good ((s.setSmoothing n gain).reset v0) := by
    simp only [Smoother.setSmoothing, hn, decide_true, if_true, Smoother.reset]
    exact coefficient (f := s.filter) h0 h1
  have hst : Within low high ((s.setSmoothing n gain).reset v0).filter.state := hv
  generalize (s.setSmoothing n gain).reset v0 = s' at hg hst
  clear hv
  induction bs generalizing s' with
  | nil => simp [run]
  | cons b bs ih =>
    obtain ⟨q1, q2⟩ := process_within (eps := eps) (threshold := threshold) (sc := b.2) hg hst (hx b (by simp))
    simp only [run]
    intro y hy
    rcases List.mem_append.mp hy with hy | hy
    · exact q1 y hy
    · exact ih (fun c hc => hx c (by simp [hc])) _ (process_good hg) q2 y hy

/-- Towards a constant value, without shortcuts, the output after `k` frames is at the distance `(1 - G) (1 - 2G)^k` of the first one,
however the frames are divided into blocks. -/
theorem one_pole_approach {eps threshold : ℚ} (sizes : List Nat) (s : Smoother) (hs : s.smoothing = true) (v : ℚ) :
    (run eps threshold s (sizes.map (fun n => (List.replicate n v, false)))).1 =
      (List.range sizes.sum).map (fun k => v + (1 - s.filter.G) * (1 - 2 * s.filter.G) ^ k * (s.filter.state - v)) := by
  rw [← (lowpass_constant s.filter v sizes.sum).1]
  induction sizes generalizing s with
  | nil => rfl
  | cons n ns ih =>
    have e : s.process eps threshold (List.replicate n v) false = ((processLowpass s.filter (List.replicate n v)).1,
        { s with filter := (processLowpass s.filter (List.replicate n v)).2, target := (s.process eps threshold (List.replicate n v) false).2.target }) := by
      unfold Smoother.process
      cases n with
      | zero => rfl
      | succ n => simp [List.replicate_succ, hs]
    simp only [List.map_cons, run, List.sum_cons, List.replicate_add]
    rw [lowpass_split, e]
    congr 1
    exact ih { s with filter := _, target := _ } hs

/-- The shortcut moves the output by less than the given part of the value. -/
theorem one_pole_shortcut {eps threshold v : ℚ} (he : 0 < eps) (s : Smoother) (n : Nat)
    (h : (s.process eps threshold (List.replicate (n + 1) v) true).1 ≠ (processLowpass s.filter (List.replicate (n + 1) v)).1)
    (hs : s.smoothing = true) :
    (s.process eps threshold (List.replicate (n + 1) v) true).1 = List.replicate (n + 1) v ∧ |v - s.filter.state| < threshold * (|v| + eps) := by
  have hp : 0 < |v| + eps := by positivity
  unfold Smoother.process at h ⊢
  rw [List.replicate_succ] at h ⊢
  simp only [Bool.true_and] at h ⊢
  split_ifs at h ⊢ with hc
  · simp only [decide_eq_true_eq] at hc
    exact ⟨rfl, by rwa [div_lt_iff₀ hp] at hc⟩
  · exact absurd rfl h

theorem last_append (c : ℚ) (xs ys : List ℚ) : (xs ++ ys).getLastD c = ys.getLastD (xs.getLastD c) := by
  induction ys using List.reverseRecOn with
  | nil => simp
  | append_singleton ys y _ => rw [← List.append_assoc]; simp

theorem process_target {eps threshold : ℚ} (s : Smoother) (input : List ℚ) (sc : Bool) :
    (s.process eps threshold input sc).2.target = input.getLastD s.target := by
  unfold Smoother.process
  cases input with
  | nil => rfl
  | cons x xs =>
    simp only
    have : (x :: xs).getLastD 0 = (x :: xs).getLastD s.target := by rw [List.getLastD_cons, List.getLastD_cons]
    split_ifs <;> exact this

theorem run_target {eps threshold : ℚ} (bs : List (List ℚ × Bool)) (s : Smoother) :
    (run eps threshold s bs).2.target = (bs.flatMap (·.1)).getLastD s.target := by
  induction bs generalizing s with
  | nil => rfl
  | cons b bs ih =>
    simp only [run, ih, process_target, List.flatMap_cons]
    rw [last_append]

theorem off_constant {eps threshold : ℚ} (v : ℚ) (sizes : List Nat) : ∀ z : Smoother, z.smoothing = false →
    ∀ y ∈ (run eps threshold z (sizes.map (fun n => (List.replicate n v, false)))).1, y = v := by
  induction sizes with
  | nil => intro z _ y hy; simp [run] at hy
  | cons n ns ih =>
    intro z hz y hy
    simp only [List.map_cons, run, List.mem_append] at hy
    rcases hy with hy | hy
    · unfold Smoother.process at hy
      cases n with
      | zero => simp at hy
      | succ n => simp [List.replicate_succ, hz] at hy; rcases hy with h | h <;> simp_all
    · refine ih _ ?_ y hy
      unfold Smoother.process
      cases n <;> simp [List.replicate_succ, hz]

/-- Reset to its target, a smoother that was given any blocks stands at its last input (or where it was reset, without any), and stays
there as long as that is its input. -/
theorem one_pole_reset {eps threshold : ℚ} (s : Smoother) (v0 v : ℚ) (bs : List (List ℚ × Bool))
    (hv : v = (bs.flatMap (·.1)).getLastD v0) (sizes : List Nat) :
    ∀ y ∈ (run eps threshold (run eps threshold (s.reset v0) bs).2.resetToTarget (sizes.map (fun n => (List.replicate n v, false)))).1, y = v := by
  have ht : (run eps threshold (s.reset v0) bs).2.target = v := by rw [run_target, hv]; rfl
  generalize (run eps threshold (s.reset v0) bs).2 = x at ht
  intro y hy
  by_cases hs : x.smoothing = true
  · rw [one_pole_approach sizes x.resetToTarget hs v] at hy
    obtain ⟨k, _, rfl⟩ := List.mem_map.mp hy
    simp [Smoother.resetToTarget, Smoother.reset, ht]
  · exact off_constant v sizes _ (by simpa [Smoother.resetToTarget, Smoother.reset] using hs) y hy

example : (run (1 / 10 ^ 6) (1 / 1000) (run (1 / 10 ^ 6) (1 / 1000) (Smoother.reset ⟨true, ⟨1 / 4, 0⟩, 0⟩ 1) [([0, 2], false)]).2.resetToTarget
    [([2, 2], false)]).1 = [2, 2] := by decide +kernel

/-- Without smoothing the input comes out unchanged. -/
theorem one_pole_off {eps threshold : ℚ} (s : Smoother) (hs : s.smoothing = false) (input : List ℚ) (sc : Bool) :
    (s.process eps threshold input sc).1 = input := by
  unfold Smoother.process
  split
  · rfl
  · simp only [hs, Bool.false_eq_true, if_false]
    split_ifs <;> rfl

/-- The low and the high pass add up to the input. -/
theorem passes_complement (f : Filter) (x : ℚ) : (tickLowpass f x).1 + (tickHighpass f x).1 = x ∧ (tickLowpass f x).2 = (tickHighpass f x).2 := by
  simp only [tickLowpass, tickHighpass, Filter.mk.injEq, and_true]
  constructor <;> ring

/-- A run of two blocks. -/
example : (run 0 (1 / 10) (({ smoothing := false, filter := ⟨0, 1 / 2⟩, target := 0 } : Smoother).setSmoothing 1 (1 / 3) |>.reset 0)
    [([1, 1], false), ([1], true)]).1 = [1 / 4, 5 / 8, 13 / 16] := by decide +kernel

/-- A value within the threshold is taken at once, and differs from what the filter gives. -/
example : let s : Smoother := ⟨true, ⟨1, 1 / 4⟩, 1⟩
    (s.process (1 / 1000) (1 / 200) [501 / 500, 501 / 500] true).1 = [501 / 500, 501 / 500] ∧
      (s.process (1 / 1000) (1 / 200) [501 / 500, 501 / 500] true).1 ≠ (processLowpass s.filter [501 / 500, 501 / 500]).1 := by decide +kernel

/-- Three blocks towards 1 give the distances of the closed form. -/
example : (run (1 / 1000) (1 / 200) ⟨true, ⟨0, 1 / 4⟩, 0⟩ ([1, 0, 2].map (fun n => (List.replicate n 1, false)))).1 =
    [1 - 3 / 4, 1 - 3 / 8, 1 - 3 / 16] := by decide +kernel

/-- Smoothing off. -/
example : (({ smoothing := true, filter := ⟨0, 1 / 2⟩, target := 0 } : Smoother).setSmoothing 0 1 |>.process (1 / 1000) (1 / 200) [3, 7] false).1 =
    [3, 7] := by decide +kernel

end Verif.OnePole
