import Verif.Lfo.Model
import Mathlib.Tactic.Linarith
import Mathlib.Tactic.Ring
import Mathlib.Tactic.FieldSimp
import Mathlib.Tactic.Positivity

/-! C42: LFO waves are bounded, the step index is valid, and the output does not depend on the split into blocks. -/
namespace Verif.Lfo

/-! ### Phases and waves -/

theorem trunc_nonneg {x : ℚ} (h : 0 ≤ x) : trunc x = ⌊x⌋ := by unfold trunc; rw [if_pos h]

theorem wrap_mem (x : ℚ) : 0 ≤ wrapPhase x ∧ wrapPhase x < 1 := by
  unfold wrapPhase trunc
  by_cases h : 0 ≤ x
  · rw [if_pos h]
    have h1 := Int.floor_le x
    have h2 := Int.lt_floor_add_one x
    rw [if_neg (by linarith)]
    constructor <;> linarith
  · rw [if_neg h]
    have h1 := Int.le_ceil x
    have h2 := Int.ceil_lt_add_one x
    split
    · constructor <;> linarith
    · constructor <;> linarith

/-- Whatever the rounding, as long as it is monotone and keeps -1, 0 and 1, the wrapped phase is in [0,1], both ends included. -/
theorem wrap_rounded_mem (rnd : ℚ → ℚ) (hm : ∀ x y, x ≤ y → rnd x ≤ rnd y) (hn : rnd (-1) = -1) (h0 : rnd 0 = 0) (h1 : rnd 1 = 1)
    (x : ℚ) : 0 ≤ wrapPhaseR rnd x ∧ wrapPhaseR rnd x ≤ 1 := by
  unfold wrapPhaseR
  have hx : -1 ≤ x - trunc x ∧ x - trunc x ≤ 1 := by
    unfold trunc
    split
    · have h1 := Int.floor_le x
      have h2 := Int.lt_floor_add_one x
      constructor <;> linarith
    · have h1 := Int.le_ceil x
      have h2 := Int.ceil_lt_add_one x
      constructor <;> linarith
  have hr := hm _ _ hx.2
  have hl := hm _ _ hx.1
  rw [h1] at hr
  rw [hn] at hl
  generalize rnd (x - trunc x) = w at hr hl
  split
  · constructor
    · have := hm 0 (w + 1) (by linarith); rwa [h0] at this
    · have := hm (w + 1) 1 (by linarith); rwa [h1] at this
  · constructor
    · have := hm 0 (w + 0) (by linarith); rwa [h0] at this
    · have := hm (w + 0) 1 (by linarith); rwa [h1] at this

example : wrapPhaseR (fun x => (⌊x * 8⌋ : ℚ) / 8) (-1/3) = 5/8 := by decide +kernel

/-- **C42, waves.** Every wave stays in [-1,1] for every phase from 0 to 1, both included. -/
theorem wave_bounded (w : Wave) (p : ℚ) (h0 : 0 ≤ p) (h1 : p ≤ 1) : -1 ≤ eval w p ∧ eval w p ≤ 1 := by
  cases w with
  | triangle =>
    simp only [eval]
    split
    · constructor <;> linarith
    · split
      · constructor <;> linarith
      · constructor <;> linarith
  | sine =>
    simp only [eval]
    rcases le_total 0 (p + p - 1) with h | h
    · rw [abs_of_nonneg h]
      constructor
      · nlinarith [sq_nonneg (2 * (p + p - 1) - 1)]
      · nlinarith
    · rw [abs_of_nonpos h]
      constructor
      · nlinarith
      · nlinarith [sq_nonneg (2 * (p + p - 1) + 1)]
  | pulse75 => simp only [eval]; split <;> norm_num
  | square => simp only [eval]; split <;> norm_num
  | pulse25 => simp only [eval]; split <;> norm_num
  | pulse12_5 => simp only [eval]; split <;> norm_num
  | ramp => simp only [eval]; constructor <;> linarith
  | saw => simp only [eval]; constructor <;> linarith
  | randomSH => simp only [eval]; norm_num

example : eval .sine (1/4) = 1 ∧ eval .triangle (3/4) = -1 ∧ eval .ramp 1 = 1 := by decide +kernel

/-- **C42, steps.** The index into the step sequence is valid for every phase in [0,1). -/
theorem step_valid (values : List ℚ) (hv : values ≠ []) (p : ℚ) (h0 : 0 ≤ p) (h1 : p < 1) : ∃ v ∈ values, stepAt values p = some v := by
  have hl : 0 < values.length := List.length_pos_iff.mpr hv
  have hq : (0 : ℚ) < values.length := by exact_mod_cast hl
  have hx : 0 ≤ p * values.length := mul_nonneg h0 hq.le
  have hy : p * values.length < values.length := by nlinarith
  have hf0 : 0 ≤ ⌊p * values.length⌋ := Int.floor_nonneg.mpr hx
  have hf1 : ⌊p * values.length⌋ < values.length := Int.floor_lt.mpr (by exact_mod_cast hy)
  have hi : ⌊p * values.length⌋.toNat < values.length := by omega
  refine ⟨values[⌊p * values.length⌋.toNat], List.getElem_mem hi, ?_⟩
  unfold stepAt
  rw [trunc_nonneg hx, if_pos hf0, List.getElem?_eq_getElem hi]

example : stepAt [5, 6, 7] (2/3) = some 7 ∧ stepAt [5, 6, 7] (1/2) = some 6 := by decide +kernel

/-- In `float` the wrapped phase can be 1, and then the step read lies after the last one: a tiny negative phase (such as a
negative phase modulation gives) wraps to 1. -/
theorem step_valid_float_violated :
    wrapPhaseR roundFloat (-1 / 2 ^ 30) = 1 ∧ stepAt [5, 6, 7] (wrapPhaseR roundFloat (-1 / 2 ^ 30)) = none := by decide +kernel

/-! ### Total versions -/

/-- What a sub adds, without the failure case. -/
def contr (sub : Sub) (s : SubState) (phase : ℚ) : ℚ := (contribution sub s phase).getD 0

theorem contribution_some (sub : Sub) (s : SubState) {p : ℚ} (h0 : 0 ≤ p) (h1 : p < 1) :
    contribution sub s p = some (contr sub s p) := by
  have : ∃ c, contribution sub s p = some c := by
    unfold contribution
    split
    · split
      · exact ⟨_, rfl⟩
      · rename_i values _ hv
        obtain ⟨v, _, hs⟩ := step_valid values (by rintro rfl; exact hv rfl) p h0 h1
        rw [hs]; exact ⟨_, rfl⟩
    · exact ⟨_, rfl⟩
    · exact ⟨_, rfl⟩
  obtain ⟨c, hc⟩ := this
  unfold contr; rw [hc]; rfl

/-- A sub over a block. -/
def tSub (d : Desc) (nth : Nat) (sub : Sub) (s : SubState) : List Mods → List ℚ × SubState
  | [] => ([], s)
  | m :: ms => (contr sub s (shownPhase d sub s m) :: (tSub d nth sub (subFrame d nth sub s m) ms).1, (tSub d nth sub (subFrame d nth sub s m) ms).2)

theorem subBlock_eq (d : Desc) (nth : Nat) (sub : Sub) (ms : List Mods) : ∀ s, subBlock d nth sub s ms = some (tSub d nth sub s ms) := by
  induction ms with
  | nil => intro s; rfl
  | cons m ms ih =>
    intro s
    unfold subBlock
    rw [contribution_some sub s (p := shownPhase d sub s m) (wrap_mem _).1 (wrap_mem _).2, ih]
    rfl

theorem tSub_length (d : Desc) (nth : Nat) (sub : Sub) (ms : List Mods) : ∀ s, (tSub d nth sub s ms).1.length = ms.length := by
  induction ms with
  | nil => intro s; rfl
  | cons m ms ih => intro s; simp [tSub, ih]

/-- All the subs over a block. -/
def tSubs (d : Desc) (ms : List Mods) : Nat → List (Sub × SubState) → List ℚ × List (Sub × SubState)
  | _, [] => (List.replicate ms.length 0, [])
  | nth, p :: rest =>
    (List.zipWith (· + ·) (tSub d nth p.1 p.2 ms).1 (tSubs d ms (nth + 1) rest).1,
      (p.1, (tSub d nth p.1 p.2 ms).2) :: (tSubs d ms (nth + 1) rest).2)

theorem subsBlock_eq (d : Desc) (ms : List Mods) (subs : List (Sub × SubState)) : ∀ nth, subsBlock d ms nth subs = some (tSubs d ms nth subs) := by
  induction subs with
  | nil => intro nth; rfl
  | cons p rest ih =>
    intro nth
    unfold subsBlock
    rw [subBlock_eq, ih]
    rfl

theorem tSubs_length (d : Desc) (ms : List Mods) (subs : List (Sub × SubState)) : ∀ nth, (tSubs d ms nth subs).1.length = ms.length := by
  induction subs with
  | nil => intro nth; simp [tSubs]
  | cons p rest ih => intro nth; simp [tSubs, tSub_length, ih]

/-- The sum of the subs in one frame. -/
def frameSum (d : Desc) (m : Mods) (subs : List (Sub × SubState)) : ℚ :=
  (subs.map (fun p => contr p.1 p.2 (shownPhase d p.1 p.2 m))).sum

/-- The subs after one frame. -/
def frameNext (d : Desc) (m : Mods) : Nat → List (Sub × SubState) → List (Sub × SubState)
  | _, [] => []
  | nth, p :: rest => (p.1, subFrame d nth p.1 p.2 m) :: frameNext d m (nth + 1) rest

theorem tSubs_nil (d : Desc) (subs : List (Sub × SubState)) : ∀ nth, tSubs d [] nth subs = ([], subs) := by
  induction subs with
  | nil => intro nth; rfl
  | cons p rest ih => intro nth; simp [tSubs, tSub, ih]

theorem tSubs_cons (d : Desc) (m : Mods) (ms : List Mods) (subs : List (Sub × SubState)) : ∀ nth,
    tSubs d (m :: ms) nth subs = (frameSum d m subs :: (tSubs d ms nth (frameNext d m nth subs)).1, (tSubs d ms nth (frameNext d m nth subs)).2) := by
  induction subs with
  | nil => intro nth; simp [tSubs, frameSum, frameNext, List.replicate_succ]
  | cons p rest ih =>
    intro nth
    simp only [tSubs, ih (nth + 1), tSub, frameNext, frameSum, List.map_cons, List.sum_cons, List.zipWith_cons_cons]

theorem process_eq (d : Desc) (s : State) (ms : List Mods) : process d s ms =
    if s.subs = [] then some (List.replicate ms.length 0, { s with delay := s.delay - min ms.length s.delay })
    else some (List.replicate (min ms.length s.delay) 0 ++ (fadeBlock d s.fadePos (tSubs d (ms.take (ms.length - min ms.length s.delay)) 0 s.subs).1).1,
      { delay := s.delay - min ms.length s.delay,
        fadePos := (fadeBlock d s.fadePos (tSubs d (ms.take (ms.length - min ms.length s.delay)) 0 s.subs).1).2,
        subs := (tSubs d (ms.take (ms.length - min ms.length s.delay)) 0 s.subs).2 }) := by
  unfold process
  simp only
  split
  · rfl
  · rw [subsBlock_eq]

/-! ### Bounds -/

/-- The largest size of the values a sub is made of. -/
def amp (sub : Sub) : ℚ :=
  match sub.source with
  | .wave _ => 1
  | .steps vs => (vs.map (fun v => |v|)).foldr max 0

/-- The largest size of the output. -/
def bound (subs : List Sub) : ℚ := (subs.map (fun s => |s.offset| + |s.scale| * amp s)).sum

theorem le_foldr_max {vs : List ℚ} {v : ℚ} (h : v ∈ vs) : |v| ≤ (vs.map (fun v => |v|)).foldr max 0 := by
  induction vs with
  | nil => simp at h
  | cons a t ih =>
    rcases List.mem_cons.mp h with rfl | h
    · exact le_max_left _ _
    · exact (ih h).trans (le_max_right _ _)

theorem amp_nonneg (sub : Sub) : 0 ≤ amp sub := by
  unfold amp
  split
  · norm_num
  · rename_i vs _
    induction vs with
    | nil => simp
    | cons a t ih => exact le_max_of_le_left (abs_nonneg a)

theorem contr_bound (sub : Sub) (s : SubState) {p : ℚ} (h0 : 0 ≤ p) (h1 : p < 1) (hm : |s.mem| ≤ 1) :
    |contr sub s p| ≤ |sub.offset| + |sub.scale| * amp sub := by
  have aux : ∀ v : ℚ, |v| ≤ amp sub → |sub.offset + sub.scale * v| ≤ |sub.offset| + |sub.scale| * amp sub := by
    intro v hv
    calc |sub.offset + sub.scale * v| ≤ |sub.offset| + |sub.scale * v| := abs_add_le _ _
      _ = |sub.offset| + |sub.scale| * |v| := by rw [abs_mul]
      _ ≤ _ := by have := mul_le_mul_of_nonneg_left hv (abs_nonneg sub.scale); linarith
  have hc := contribution_some sub s h0 h1
  unfold contribution at hc
  split at hc
  · rename_i vs hs
    split at hc
    · rw [← Option.some.inj hc, abs_zero]
      exact add_nonneg (abs_nonneg _) (mul_nonneg (abs_nonneg _) (amp_nonneg _))
    · rename_i hv
      obtain ⟨v, hvm, hst⟩ := step_valid vs (by rintro rfl; exact hv rfl) p h0 h1
      rw [hst] at hc
      rw [← Option.some.inj hc]
      apply aux
      unfold amp; rw [hs]; exact le_foldr_max hvm
  · rename_i hs
    rw [← Option.some.inj hc]
    apply aux
    unfold amp; rw [hs]; exact hm
  · rename_i w hw hs
    rw [← Option.some.inj hc]
    apply aux
    unfold amp; rw [hs]
    exact abs_le.mpr (wave_bounded w p h0 h1.le)

/-- The held values are in range. -/
def Held (subs : List (Sub × SubState)) : Prop := ∀ p ∈ subs, |p.2.mem| ≤ 1

theorem subFrame_held (d : Desc) (hr : ∀ k n, |d.random k n| ≤ 1) (nth : Nat) (sub : Sub) (s : SubState) (m : Mods) (h : |s.mem| ≤ 1) :
    |(subFrame d nth sub s m).mem| ≤ 1 := by
  unfold subFrame holdUpdate
  split
  · split
    · exact hr _ _
    · exact h
  · exact h

theorem frameNext_held (d : Desc) (hr : ∀ k n, |d.random k n| ≤ 1) (m : Mods) (subs : List (Sub × SubState)) :
    ∀ nth, Held subs → Held (frameNext d m nth subs) ∧ (frameNext d m nth subs).map (·.1) = subs.map (·.1) := by
  induction subs with
  | nil => intro nth h; exact ⟨h, rfl⟩
  | cons p rest ih =>
    intro nth h
    have := ih (nth + 1) (fun q hq => h q (by simp [hq]))
    refine ⟨?_, by simp [frameNext, this.2]⟩
    intro q hq
    simp only [frameNext, List.mem_cons] at hq
    rcases hq with rfl | hq
    · exact subFrame_held d hr nth p.1 p.2 m (h p (by simp))
    · exact this.1 q hq

theorem frameSum_bound (d : Desc) (m : Mods) (subs : List (Sub × SubState)) (h : Held subs) :
    |frameSum d m subs| ≤ bound (subs.map (·.1)) := by
  induction subs with
  | nil => simp [frameSum, bound]
  | cons p rest ih =>
    have h1 := contr_bound p.1 p.2 (p := shownPhase d p.1 p.2 m) (wrap_mem _).1 (wrap_mem _).2 (h p (by simp))
    have h2 := ih (fun q hq => h q (by simp [hq]))
    unfold frameSum bound at h2 ⊢
    simp only [List.map_cons, List.sum_cons]
    exact (abs_add_le _ _).trans (add_le_add h1 h2)

theorem tSubs_bound (d : Desc) (hr : ∀ k n, |d.random k n| ≤ 1) (ms : List Mods) : ∀ (subs : List (Sub × SubState)) (nth : Nat), Held subs →
    (∀ y ∈ (tSubs d ms nth subs).1, |y| ≤ bound (subs.map (·.1))) ∧ Held (tSubs d ms nth subs).2 ∧
    (tSubs d ms nth subs).2.map (·.1) = subs.map (·.1) := by
  induction ms with
  | nil => intro subs nth h; rw [tSubs_nil]; exact ⟨by simp, h, rfl⟩
  | cons m ms ih =>
    intro subs nth h
    rw [tSubs_cons]
    have hn := frameNext_held d hr m subs nth h
    have := ih _ nth hn.1
    rw [hn.2] at this
    refine ⟨?_, this.2⟩
    intro y hy
    rcases List.mem_cons.mp hy with rfl | hy
    · exact frameSum_bound d m subs h
    · exact this.1 y hy

theorem fadeBlock_bound (d : Desc) {B : ℚ} (ys : List ℚ) : ∀ pos : ℚ, 0 ≤ pos → pos ≤ 1 →
    (pos < 1 → 0 ≤ d.samplePeriod / d.fadeTime) → (∀ y ∈ ys, |y| ≤ B) →
    (∀ y ∈ (fadeBlock d pos ys).1, |y| ≤ B) ∧ 0 ≤ (fadeBlock d pos ys).2 ∧ (fadeBlock d pos ys).2 ≤ 1 ∧
    ((fadeBlock d pos ys).2 < 1 → pos < 1) := by
  induction ys with
  | nil => intro pos h0 h1 _ _; exact ⟨by simp [fadeBlock], h0, h1, fun h => h⟩
  | cons y ys ih =>
    intro pos h0 h1 hs hy
    unfold fadeBlock
    split
    · rename_i hlt
      have hst := hs hlt
      have := ih (min 1 (pos + d.samplePeriod / d.fadeTime)) (le_min (by norm_num) (by linarith)) (min_le_left _ _) (fun _ => hst)
        (fun z hz => hy z (by simp [hz]))
      refine ⟨?_, this.2.1, this.2.2.1, fun _ => hlt⟩
      intro z hz
      rcases List.mem_cons.mp hz with rfl | hz
      · rw [abs_mul, abs_of_nonneg h0]
        have := hy y (by simp)
        calc |y| * pos ≤ |y| * 1 := mul_le_mul_of_nonneg_left h1 (abs_nonneg y)
          _ ≤ B := by rw [mul_one]; exact this
      · exact this.1 z hz
    · exact ⟨hy, h0, h1, fun h => h⟩

/-- What every reachable state satisfies. -/
structure Ok (d : Desc) (subs : List Sub) (s : State) : Prop where
  same : s.subs.map (·.1) = subs
  held : Held s.subs
  fade0 : 0 ≤ s.fadePos
  fade1 : s.fadePos ≤ 1
  rate : s.fadePos < 1 → 0 ≤ d.samplePeriod / d.fadeTime

theorem bound_nonneg (subs : List Sub) : 0 ≤ bound subs := by
  apply List.sum_nonneg
  intro x hx
  obtain ⟨s, _, rfl⟩ := List.mem_map.mp hx
  exact add_nonneg (abs_nonneg _) (mul_nonneg (abs_nonneg _) (amp_nonneg _))

theorem process_ok (d : Desc) (hr : ∀ k n, |d.random k n| ≤ 1) (subs : List Sub) (s : State) (h : Ok d subs s) (ms : List Mods) :
    ∃ out s', process d s ms = some (out, s') ∧ Ok d subs s' ∧ out.length = ms.length ∧ ∀ y ∈ out, |y| ≤ bound subs := by
  rw [process_eq]
  split
  · refine ⟨_, _, rfl, ⟨h.same, h.held, h.fade0, h.fade1, h.rate⟩, by simp, ?_⟩
    intro y hy
    rw [List.eq_of_mem_replicate hy, abs_zero]
    exact bound_nonneg subs
  · have hb := tSubs_bound d hr (ms.take (ms.length - min ms.length s.delay)) s.subs 0 h.held
    rw [h.same] at hb
    have hf := fadeBlock_bound d _ s.fadePos h.fade0 h.fade1 h.rate hb.1
    have hlen : ∀ (ys : List ℚ) (pos : ℚ), (fadeBlock d pos ys).1.length = ys.length := by
      intro ys
      induction ys with
      | nil => intro pos; rfl
      | cons y ys ih => intro pos; unfold fadeBlock; split <;> simp [ih]
    refine ⟨_, _, rfl, ⟨hb.2.2, hb.2.1, hf.2.1, hf.2.2.1, fun hh => h.rate (hf.2.2.2 hh)⟩, ?_, ?_⟩
    · rw [List.length_append, List.length_replicate, hlen, tSubs_length, List.length_take]; omega
    · intro y hy
      rcases List.mem_append.mp hy with hy | hy
      · rw [List.eq_of_mem_replicate hy, abs_zero]; exact bound_nonneg subs
      · exact hf.1 y hy

theorem start_ok (d : Desc) (hp : 0 < d.samplePeriod) (delay : Nat) (subs : List Sub) : Ok d subs (start delay d.fadeTime subs) := by
  refine ⟨by simp [start, Function.comp_def], ?_, ?_, ?_, ?_⟩
  · intro p hp
    simp only [start, List.mem_map] at hp
    obtain ⟨s, _, rfl⟩ := hp
    simp
  · simp only [start]; split <;> norm_num
  · simp only [start]; split <;> norm_num
  · intro h
    simp only [start] at h
    split at h
    · rename_i hf; exact div_nonneg hp.le hf.le
    · norm_num at h

theorem run_ok (d : Desc) (hr : ∀ k n, |d.random k n| ≤ 1) (subs : List Sub) (blocks : List (List Mods)) : ∀ s, Ok d subs s →
    ∃ out s', run d s blocks = some (out, s') ∧ Ok d subs s' ∧ out.length = (blocks.map List.length).sum ∧ ∀ y ∈ out, |y| ≤ bound subs := by
  induction blocks with
  | nil => intro s h; exact ⟨[], s, rfl, h, rfl, by simp⟩
  | cons ms rest ih =>
    intro s h
    obtain ⟨o1, s1, e1, h1, l1, b1⟩ := process_ok d hr subs s h ms
    obtain ⟨o2, s2, e2, h2, l2, b2⟩ := ih s1 h1
    refine ⟨o1 ++ o2, s2, ?_, h2, by simp [l1, l2], ?_⟩
    · simp only [run, e1, e2]
    · intro y hy
      rcases List.mem_append.mp hy with hy | hy
      · exact b1 y hy
      · exact b2 y hy

/-- **C42.** From the start, for every history of blocks with any modulations of frequency and phase, the LFO never reads outside
its step sequence, gives one value per frame, and stays within the sum of the ranges of its subs. -/
theorem lfo_bounded (d : Desc) (hp : 0 < d.samplePeriod) (hr : ∀ k n, |d.random k n| ≤ 1) (delay : Nat) (subs : List Sub)
    (blocks : List (List Mods)) :
    ∃ out s, run d (start delay d.fadeTime subs) blocks = some (out, s) ∧ out.length = (blocks.map List.length).sum ∧
      ∀ y ∈ out, |y| ≤ bound subs := by
  obtain ⟨out, s, h1, _, h2, h3⟩ := run_ok d hr subs blocks _ (start_ok d hp delay subs)
  exact ⟨out, s, h1, h2, h3⟩

/-- A plain LFO of full scale stays in [-1,1]. -/
example (w : Wave) : bound [⟨.wave w, 0, 1, 1⟩] = 1 := by simp [bound, amp]

example : (run ⟨1/8, 1, 0, 0, fun _ _ => 0, 0⟩ (start 2 0 [⟨.wave .triangle, 0, 1, 1⟩]) [List.replicate 3 { freq := 0, phase := 0 }, List.replicate 4 { freq := 0, phase := 0 }]).map (·.1)
    = some [0, 0, 0, 1/2, 1, 1/2, 0] := by decide +kernel

/-! ### Splits -/

/-- One frame of the LFO with constant modulations. -/
def tick (d : Desc) (m : Mods) (s : State) : ℚ × State :=
  if s.delay > 0 then (0, { s with delay := s.delay - 1 })
  else if s.subs = [] then (0, s)
  else if s.fadePos < 1 then
    (frameSum d m s.subs * s.fadePos, { s with fadePos := min 1 (s.fadePos + d.samplePeriod / d.fadeTime), subs := frameNext d m 0 s.subs })
  else (frameSum d m s.subs, { s with subs := frameNext d m 0 s.subs })

/-- `n` frames. -/
def ticks (d : Desc) (m : Mods) : Nat → State → List ℚ × State
  | 0, s => ([], s)
  | n + 1, s => ((tick d m s).1 :: (ticks d m n (tick d m s).2).1, (ticks d m n (tick d m s).2).2)

theorem ticks_add (d : Desc) (m : Mods) (a b : Nat) (s : State) :
    ticks d m (a + b) s = ((ticks d m a s).1 ++ (ticks d m b (ticks d m a s).2).1, (ticks d m b (ticks d m a s).2).2) := by
  induction a generalizing s with
  | zero => simp [ticks]
  | succ a ih => rw [show a + 1 + b = (a + b) + 1 by omega]; simp only [ticks, ih, List.cons_append]

theorem ticks_delay (d : Desc) (m : Mods) (n : Nat) (s : State) (h : n ≤ s.delay) :
    ticks d m n s = (List.replicate n 0, { s with delay := s.delay - n }) := by
  induction n generalizing s with
  | zero => rfl
  | succ n ih =>
    simp only [ticks]
    have ht : tick d m s = (0, { s with delay := s.delay - 1 }) := by unfold tick; rw [if_pos (by omega)]
    rw [ht]
    simp only
    rw [ih _ (by dsimp only; omega)]
    simp only [List.replicate_succ]
    congr 2
    omega

theorem ticks_run (d : Desc) (m : Mods) (n : Nat) (s : State) (h0 : s.delay = 0) (hs : s.subs ≠ []) :
    ticks d m n s = ((fadeBlock d s.fadePos (tSubs d (List.replicate n m) 0 s.subs).1).1,
      { delay := 0, fadePos := (fadeBlock d s.fadePos (tSubs d (List.replicate n m) 0 s.subs).1).2,
        subs := (tSubs d (List.replicate n m) 0 s.subs).2 }) := by
  induction n generalizing s with
  | zero =>
    rw [List.replicate_zero, tSubs_nil]
    simp only [ticks, fadeBlock]
    congr 1
    cases s; simp_all
  | succ n ih =>
    have hne : frameNext d m 0 s.subs ≠ [] := by
      cases hsub : s.subs with
      | nil => exact absurd hsub hs
      | cons p rest => simp [frameNext]
    rw [List.replicate_succ, tSubs_cons]
    simp only [ticks]
    by_cases hf : s.fadePos < 1
    · have ht : tick d m s = (frameSum d m s.subs * s.fadePos,
          { s with fadePos := min 1 (s.fadePos + d.samplePeriod / d.fadeTime), subs := frameNext d m 0 s.subs }) := by
        unfold tick; rw [if_neg (by omega), if_neg hs, if_pos hf]
      rw [ht]
      simp only
      rw [ih { s with fadePos := min 1 (s.fadePos + d.samplePeriod / d.fadeTime), subs := frameNext d m 0 s.subs } h0 hne]
      simp only [fadeBlock, if_pos hf]
    · have ht : tick d m s = (frameSum d m s.subs, { s with subs := frameNext d m 0 s.subs }) := by
        unfold tick; rw [if_neg (by omega), if_neg hs, if_neg hf]
      have hfull : ∀ ys, fadeBlock d s.fadePos ys = (ys, s.fadePos) := by
        intro ys
        cases ys with
        | nil => rfl
        | cons y ys => unfold fadeBlock; rw [if_neg hf]
      rw [ht]
      simp only
      rw [ih { s with subs := frameNext d m 0 s.subs } h0 hne]
      simp only [hfull]

theorem ticks_empty (d : Desc) (m : Mods) (n : Nat) (s : State) (hs : s.subs = []) :
    ticks d m n s = (List.replicate n 0, { s with delay := s.delay - min n s.delay }) := by
  induction n generalizing s with
  | zero => simp [ticks]
  | succ n ih =>
    simp only [ticks]
    by_cases hd : s.delay > 0
    · have ht : tick d m s = (0, { s with delay := s.delay - 1 }) := by unfold tick; rw [if_pos hd]
      rw [ht]
      simp only
      rw [ih { s with delay := s.delay - 1 } hs]
      simp only [List.replicate_succ]
      congr 2
      omega
    · have ht : tick d m s = (0, s) := by unfold tick; rw [if_neg hd, if_pos hs]
      rw [ht]
      simp only
      rw [ih _ hs]
      simp only [List.replicate_succ]
      congr 2
      omega

theorem process_ticks (d : Desc) (m : Mods) (n : Nat) (s : State) : process d s (List.replicate n m) = some (ticks d m n s) := by
  rw [process_eq]
  split
  · rename_i hs
    rw [ticks_empty d m n s hs]; simp
  · rename_i hs
    have hsplit : n = min n s.delay + (n - min n s.delay) := by omega
    rw [List.length_replicate, List.take_replicate]
    conv_rhs => rw [hsplit]
    rw [ticks_add, ticks_delay d m (min n s.delay) s (by omega)]
    simp only
    rw [show min (n - min n s.delay) n = n - min n s.delay by omega]
    by_cases hz : s.delay - min n s.delay = 0
    · rw [ticks_run d m _ { s with delay := s.delay - min n s.delay } hz hs]
      simp only [hz]
    · have : n - min n s.delay = 0 := by omega
      rw [this, List.replicate_zero, tSubs_nil]
      simp [ticks, fadeBlock]

/-- **C42, splits.** With constant modulations, the output is that of the frames one by one, however they are
split into blocks. -/
theorem lfo_split_partial (d : Desc) (m : Mods) (s : State) (blocks : List Nat) :
    run d s (blocks.map (fun n => List.replicate n m)) = some (ticks d m blocks.sum s) := by
  induction blocks generalizing s with
  | nil => rfl
  | cons n rest ih =>
    simp only [List.map_cons, run]
    rw [process_ticks]
    simp only
    rw [ih]
    simp only [List.sum_cons]
    rw [ticks_add]

/-- **C42, delay.** The first `delay` frames are 0 and nothing moves during them. -/
theorem lfo_delay (d : Desc) (m : Mods) (delay : Nat) (subs : List Sub) (n : Nat) (h : n ≤ delay) :
    ticks d m n (start delay d.fadeTime subs) = (List.replicate n 0, start (delay - n) d.fadeTime subs) := by
  rw [ticks_delay d m n _ h]; rfl

/-- With a modulation that varies, the frame at which the delay ends matters: in the block where it ends, the modulation is read
from the beginning of the block. -/
theorem lfo_split_violated :
    (run ⟨1/8, 1, 0, 0, fun _ _ => 0, 0⟩ (start 1 0 [⟨.wave .ramp, 0, 1, 1⟩]) [[{ freq := 0, phase := 1/4 }, { freq := 0, phase := 1/2 }]]).map (·.1) = some [0, -1/2] ∧
    (run ⟨1/8, 1, 0, 0, fun _ _ => 0, 0⟩ (start 1 0 [⟨.wave .ramp, 0, 1, 1⟩]) [[{ freq := 0, phase := 1/4 }], [{ freq := 0, phase := 1/2 }]]).map (·.1) = some [0, 0] := by
  decide +kernel

/-! ### The shape -/

theorem wrap_fract (x : ℚ) : wrapPhase x = Int.fract x := by
  obtain ⟨h0, h1⟩ := wrap_mem x
  refine (Int.fract_eq_iff.mpr ⟨h0, h1, trunc x - (if x - trunc x < 0 then 1 else 0), ?_⟩).symm
  unfold wrapPhase
  split <;> push_cast <;> ring

/-- Where a frame lies on the wave, in periods: with the host playing and beats given, its position in beats (not before the start of
the song) by the period in beats; otherwise the time run freely so far, times the frequency. -/
def Periods (d : Desc) (sub : Sub) (before : List Mods) (m : Mods) : ℚ :=
  if m.playing = true ∧ 0 < d.beats then
    if 0 < sub.ratio ∧ 0 < d.beats + m.beats then sub.ratio * max 0 m.position / (d.beats + m.beats) else 0
  else
    sub.ratio * d.samplePeriod * ((before.filter (fun m => ¬ (m.playing = true ∧ 0 < d.beats))).map (fun m => d.freq + m.freq)).sum

/-- The value of a sub at a point of its period. -/
def Value (sub : Sub) (p : ℚ) : ℚ :=
  match sub.source with
  | .wave w => sub.offset + sub.scale * eval w p
  | .steps vs => if vs = [] then 0 else sub.offset + sub.scale * vs.getD ⌊p * vs.length⌋.toNat 0

theorem follows_iff (d : Desc) (m : Mods) : followsBeats d m = true ↔ m.playing = true ∧ 0 < d.beats := by
  simp [followsBeats]

theorem beatPhase_fract (d : Desc) (sub : Sub) (m : Mods) : beatPhase (beatPeriod d sub m) m.position =
    Int.fract (if 0 < sub.ratio ∧ 0 < d.beats + m.beats then sub.ratio * max 0 m.position / (d.beats + m.beats) else 0) := by
  unfold beatPhase beatPeriod
  by_cases hr : 0 < sub.ratio
  · rw [if_pos hr]
    by_cases hb : 0 < d.beats + m.beats
    · have hp : 0 < (d.beats + m.beats) * (1 / sub.ratio) := by positivity
      rw [if_neg (not_le.mpr hp), if_pos ⟨hr, hb⟩]
      have he : max 0 m.position / ((d.beats + m.beats) * (1 / sub.ratio)) = sub.ratio * max 0 m.position / (d.beats + m.beats) := by
        field_simp
      rw [he, trunc_nonneg (by positivity)]
      rfl
    · have hp : (d.beats + m.beats) * (1 / sub.ratio) ≤ 0 := mul_nonpos_of_nonpos_of_nonneg (not_lt.mp hb) (by positivity)
      rw [if_pos hp, if_neg (fun h => hb h.2)]
      simp
  · rw [if_neg hr, if_pos (by simp), if_neg (fun h => hr h.1)]
    simp

theorem contr_value (sub : Sub) (hs : sub.source ≠ .wave .randomSH) (s : SubState) {p : ℚ} (h0 : 0 ≤ p) (h1 : p < 1) :
    contr sub s p = Value sub p := by
  unfold contr contribution Value
  cases hsrc : sub.source with
  | wave w => cases w <;> first | rfl | exact absurd hsrc hs
  | steps vs =>
    simp only
    by_cases hv : vs = []
    · subst hv; simp
    · have hl : vs.length ≠ 0 := fun h => hv (List.length_eq_zero_iff.mp h)
      rw [if_neg hl, if_neg hv]
      have hx : 0 ≤ p * vs.length := mul_nonneg h0 (by positivity)
      obtain ⟨v, _, hst⟩ := step_valid vs hv p h0 h1
      rw [hst]
      unfold stepAt at hst
      rw [trunc_nonneg hx, if_pos (Int.floor_nonneg.mpr hx)] at hst
      rw [List.getD_eq_getElem?_getD, hst]
      rfl

theorem fract_fract_add (z w : ℚ) : Int.fract (Int.fract z + w) = Int.fract (z + w) := by
  rw [Int.fract_eq_fract]
  refine ⟨-⌊z⌋, ?_⟩
  rw [← Int.self_sub_floor]
  push_cast
  ring

theorem nextPhase_fract (d : Desc) (sub : Sub) (before : List Mods) (s : SubState) (m : Mods)
    (hs : s.phase = Int.fract (sub.ratio * d.samplePeriod * ((before.filter (fun m => ¬ (m.playing = true ∧ 0 < d.beats))).map (fun m => d.freq + m.freq)).sum)) :
    nextPhase d sub s m = Int.fract (sub.ratio * d.samplePeriod *
      (((before ++ [m]).filter (fun m => ¬ (m.playing = true ∧ 0 < d.beats))).map (fun m => d.freq + m.freq)).sum) := by
  unfold nextPhase
  rw [List.filter_append]
  by_cases hm : m.playing = true ∧ 0 < d.beats
  · rw [if_pos ((follows_iff d m).mpr hm)]
    have : [m].filter (fun m => ¬ (m.playing = true ∧ 0 < d.beats)) = [] := by simp [hm.1, hm.2]
    rw [this, List.append_nil, hs]
  · rw [if_neg (fun h => hm ((follows_iff d m).mp h))]
    have : [m].filter (fun m => ¬ (m.playing = true ∧ 0 < d.beats)) = [m] := List.filter_eq_self.mpr (by
      intro a ha
      rw [List.mem_singleton.mp ha]
      exact decide_eq_true hm)
    rw [this, wrap_fract, hs, List.map_append, List.sum_append, List.map_singleton, List.sum_singleton, fract_fract_add]
    congr 1
    ring

theorem shown_fract (d : Desc) (sub : Sub) (before : List Mods) (s : SubState) (m : Mods)
    (hs : s.phase = Int.fract (sub.ratio * d.samplePeriod * ((before.filter (fun m => ¬ (m.playing = true ∧ 0 < d.beats))).map (fun m => d.freq + m.freq)).sum)) :
    shownPhase d sub s m = Int.fract (Periods d sub before m + d.phase0 + m.phase) := by
  unfold shownPhase
  have : (if followsBeats d m then beatPhase (beatPeriod d sub m) m.position else s.phase) = Int.fract (Periods d sub before m) := by
    unfold Periods
    by_cases hm : m.playing = true ∧ 0 < d.beats
    · rw [if_pos ((follows_iff d m).mpr hm), if_pos hm, beatPhase_fract]
    · rw [if_neg (fun h => hm ((follows_iff d m).mp h)), if_neg hm, hs]
  rw [this, wrap_fract, Int.fract_eq_fract]
  refine ⟨-⌊Periods d sub before m⌋, ?_⟩
  rw [← Int.self_sub_floor]
  push_cast
  ring

theorem subFrame_phase (d : Desc) (nth : Nat) (sub : Sub) (s : SubState) (m : Mods) :
    (subFrame d nth sub s m).phase = nextPhase d sub s m := rfl

theorem tSub_shape (d : Desc) (nth : Nat) (sub : Sub) (hsrc : sub.source ≠ .wave .randomSH) (ms : List Mods) : ∀ (before : List Mods) (s : SubState),
    s.phase = Int.fract (sub.ratio * d.samplePeriod * ((before.filter (fun m => ¬ (m.playing = true ∧ 0 < d.beats))).map (fun m => d.freq + m.freq)).sum) →
    ∀ k (hk : k < ms.length), (tSub d nth sub s ms).1[k]? =
      some (Value sub (Int.fract (Periods d sub (before ++ ms.take k) ms[k] + d.phase0 + ms[k].phase))) := by
  induction ms with
  | nil => intro before s _ k hk; simp at hk
  | cons m ms ih =>
    intro before s hs k hk
    cases k with
    | zero =>
      simp only [tSub, List.getElem?_cons_zero, List.take_zero, List.append_nil, List.getElem_cons_zero]
      rw [contr_value sub hsrc s (p := shownPhase d sub s m) (wrap_mem _).1 (wrap_mem _).2]
      exact congrArg (fun p => some (Value sub p)) (shown_fract d sub before s m hs)
    | succ k =>
      have := ih (before ++ [m]) (subFrame d nth sub s m) (by rw [subFrame_phase]; exact nextPhase_fract d sub before s m hs) k (by simpa using hk)
      simp only [tSub, List.getElem?_cons_succ, List.take_succ_cons, List.getElem_cons_succ]
      rw [this, List.append_assoc, List.singleton_append]

theorem tSubs_shape (d : Desc) (ms : List Mods) (subs : List (Sub × SubState)) (hsrc : ∀ p ∈ subs, p.1.source ≠ .wave .randomSH) (h0 : ∀ p ∈ subs, p.2.phase = 0) :
    ∀ (nth : Nat) k (hk : k < ms.length), (tSubs d ms nth subs).1[k]? =
      some ((subs.map (fun p => Value p.1 (Int.fract (Periods d p.1 (ms.take k) ms[k] + d.phase0 + ms[k].phase)))).sum) := by
  induction subs with
  | nil => intro nth k hk; simp [tSubs, hk]
  | cons p rest ih =>
    intro nth k hk
    have h1 := tSub_shape d nth p.1 (hsrc p (by simp)) ms [] p.2 (by rw [h0 p (by simp)]; simp) k hk
    have h2 := ih (fun q hq => hsrc q (by simp [hq])) (fun q hq => h0 q (by simp [hq])) (nth + 1) k hk
    simp only [tSubs, List.getElem?_zipWith, h1, h2, List.map_cons, List.sum_cons, List.nil_append]

theorem fade_shape (d : Desc) (hstep : 0 ≤ d.samplePeriod / d.fadeTime) (ys : List ℚ) : ∀ (pos : ℚ), pos ≤ 1 → ∀ k (hk : k < ys.length),
    (fadeBlock d pos ys).1[k]? = some (ys[k] * min 1 (pos + k * (d.samplePeriod / d.fadeTime))) := by
  induction ys with
  | nil => intro pos _ k hk; simp at hk
  | cons y ys ih =>
    intro pos hpos k hk
    unfold fadeBlock
    by_cases hp : pos < 1
    · rw [if_pos hp]
      cases k with
      | zero => simp [min_eq_right hpos]
      | succ k =>
        simp only [List.getElem?_cons_succ, List.getElem_cons_succ]
        rw [ih _ (min_le_left _ _) k (by simpa using hk)]
        congr 2
        push_cast
        have hk0 : (0 : ℚ) ≤ k * (d.samplePeriod / d.fadeTime) := by positivity
        rcases le_total 1 (pos + d.samplePeriod / d.fadeTime) with h | h
        · rw [min_eq_left h, min_eq_left (by linarith), min_eq_left (by linarith)]
        · rw [min_eq_right h]; congr 1; ring
    · have : pos = 1 := le_antisymm hpos (not_lt.mp hp)
      subst this
      rw [if_neg hp, min_eq_left (by have : (0 : ℚ) ≤ k * (d.samplePeriod / d.fadeTime) := by positivity
                                     linarith), mul_one, List.getElem?_eq_getElem hk]

theorem fade_append (d : Desc) (xs ys : List ℚ) : ∀ pos : ℚ,
    fadeBlock d pos (xs ++ ys) = ((fadeBlock d pos xs).1 ++ (fadeBlock d (fadeBlock d pos xs).2 ys).1, (fadeBlock d (fadeBlock d pos xs).2 ys).2) := by
  induction xs with
  | nil => intro pos; rfl
  | cons x xs ih =>
    intro pos
    by_cases hp : pos < 1
    · simp only [List.cons_append, fadeBlock, if_pos hp, ih]
    · simp only [List.cons_append, fadeBlock, if_neg hp]
      cases ys with
      | nil => simp [fadeBlock]
      | cons y ys => simp only [fadeBlock, if_neg hp]

theorem tSubs_append (d : Desc) (xs ys : List Mods) : ∀ (subs : List (Sub × SubState)),
    tSubs d (xs ++ ys) 0 subs = ((tSubs d xs 0 subs).1 ++ (tSubs d ys 0 (tSubs d xs 0 subs).2).1, (tSubs d ys 0 (tSubs d xs 0 subs).2).2) := by
  induction xs with
  | nil => intro subs; simp [tSubs_nil]
  | cons m xs ih =>
    intro subs
    simp only [List.cons_append, tSubs_cons, ih]

theorem run_flat (d : Desc) (blocks : List (List Mods)) : ∀ (s : State), s.delay = 0 → s.subs ≠ [] →
    ∃ s', run d s blocks = some ((fadeBlock d s.fadePos (tSubs d blocks.flatten 0 s.subs).1).1, s') := by
  induction blocks with
  | nil => intro s _ _; exact ⟨s, by simp [run, tSubs_nil, fadeBlock]⟩
  | cons ms rest ih =>
    intro s h0 hs
    unfold run
    rw [process_eq, if_neg hs, h0]
    simp only [Nat.min_zero, List.replicate_zero, List.nil_append, Nat.sub_zero, List.take_length]
    have hne : (tSubs d ms 0 s.subs).2 ≠ [] := by
      cases hh : s.subs with
      | nil => exact absurd hh hs
      | cons p r => simp [tSubs]
    obtain ⟨s', h'⟩ := ih ⟨0, (fadeBlock d s.fadePos (tSubs d ms 0 s.subs).1).2, (tSubs d ms 0 s.subs).2⟩ rfl hne
    rw [h']
    refine ⟨s', ?_⟩
    simp only [List.flatten_cons, tSubs_append, fade_append]

/-- **C42, shape.** Without a delay, for every history of blocks: the frame `k` is the sum of the subs, each at its point of the period
(the position of the host in beats while it plays, else the time run freely), shifted by the phase and its modulation, times the
fade-in, which grows linearly to 1 over the fade time. The cut into blocks has no influence. Subs that draw random numbers are left out. -/
theorem lfo_shape (d : Desc) (hp : 0 < d.samplePeriod) (subs : List Sub) (hsub : subs ≠ []) (hsrc : ∀ s ∈ subs, s.source ≠ .wave .randomSH)
    (blocks : List (List Mods)) (k : Nat) (hk : k < blocks.flatten.length) :
    ∃ out s, run d (start 0 d.fadeTime subs) blocks = some (out, s) ∧ out[k]? = some (
      (subs.map (fun sub => Value sub (Int.fract (Periods d sub (blocks.flatten.take k) blocks.flatten[k] + d.phase0 + blocks.flatten[k].phase)))).sum *
      (if 0 < d.fadeTime then min 1 (k * d.samplePeriod / d.fadeTime) else 1)) := by
  obtain ⟨s', h'⟩ := run_flat d blocks (start 0 d.fadeTime subs) rfl (by simpa [start] using hsub)
  refine ⟨_, s', h', ?_⟩
  have hsh := tSubs_shape d blocks.flatten (start 0 d.fadeTime subs).subs (by
      intro p hp
      simp only [start, List.mem_map] at hp
      obtain ⟨s, hs, rfl⟩ := hp
      exact hsrc s hs) (by
      intro p hp
      simp only [start, List.mem_map] at hp
      obtain ⟨s, hs, rfl⟩ := hp
      rfl) 0 k hk
  have hmap : (start 0 d.fadeTime subs).subs.map (fun p => Value p.1 (Int.fract (Periods d p.1 (blocks.flatten.take k) blocks.flatten[k] + d.phase0 + blocks.flatten[k].phase))) =
      subs.map (fun sub => Value sub (Int.fract (Periods d sub (blocks.flatten.take k) blocks.flatten[k] + d.phase0 + blocks.flatten[k].phase))) := by
    simp [start, Function.comp_def]
  rw [hmap] at hsh
  obtain ⟨hk', hsh⟩ := List.getElem?_eq_some_iff.mp hsh
  by_cases hf : 0 < d.fadeTime
  · have h0 : (start 0 d.fadeTime subs).fadePos = 0 := by simp [start, hf]
    rw [h0, fade_shape d (by positivity) _ 0 (by norm_num) k hk', hsh, if_pos hf]
    congr 3
    ring
  · have h0 : (start 0 d.fadeTime subs).fadePos = 1 := by simp [start, hf]
    rw [h0, if_neg hf, mul_one, ← hsh]
    have : fadeBlock d 1 (tSubs d blocks.flatten 0 (start 0 d.fadeTime subs).subs).1 = ((tSubs d blocks.flatten 0 (start 0 d.fadeTime subs).subs).1, 1) := by
      cases (tSubs d blocks.flatten 0 (start 0 d.fadeTime subs).subs).1 <;> simp [fadeBlock]
    rw [this]
    exact List.getElem?_eq_getElem hk'

/-- An LFO of 2 Hz at 8 frames per second, whose host starts to play in the second block, at beat 3, half a beat per frame. -/
example : ((run ⟨1/8, 2, 0, 1/2, fun _ _ => 0, 4⟩ (start 0 (1/2) [⟨.wave .ramp, 0, 1, 1⟩])
    [[{ freq := 0, phase := 0 }, { freq := 0, phase := 0 }], [{ freq := 0, phase := 0, playing := true, position := 3 }, { freq := 0, phase := 0, playing := true, position := 7/2 }]]).map (·.1))
    = some [0, -1/8, 1/4, 9/16] := by decide +kernel

theorem tSubs_range (d : Desc) (ms : List Mods) : ∀ subs : List (Sub × SubState), (∀ p ∈ subs, 0 ≤ p.2.phase ∧ p.2.phase < 1) →
    ∀ p ∈ (tSubs d ms 0 subs).2, 0 ≤ p.2.phase ∧ p.2.phase < 1 := by
  have step : ∀ (m : Mods) (subs : List (Sub × SubState)) (nth : Nat), (∀ p ∈ subs, 0 ≤ p.2.phase ∧ p.2.phase < 1) →
      ∀ p ∈ frameNext d m nth subs, 0 ≤ p.2.phase ∧ p.2.phase < 1 := by
    intro m subs
    induction subs with
    | nil => intro nth _ p hp; simp [frameNext] at hp
    | cons q rest ih =>
      intro nth h p hp
      rcases List.mem_cons.mp hp with rfl | hp
      · show 0 ≤ nextPhase d q.1 q.2 m ∧ nextPhase d q.1 q.2 m < 1
        unfold nextPhase
        split
        · exact h q (by simp)
        · exact wrap_mem _
      · exact ih (nth + 1) (fun r hr => h r (by simp [hr])) p hp
  induction ms with
  | nil => intro subs h; rw [tSubs_nil]; exact h
  | cons m ms ih => intro subs h; rw [tSubs_cons]; exact ih _ (step m subs 0 h)

/-- **C42, phase.** The phase kept from block to block stays in [0, 1) for every history, so it does not lose precision with time. -/
theorem lfo_phase_range (d : Desc) (delay : Nat) (subs : List Sub) (blocks : List (List Mods)) (out : List ℚ) (s : State)
    (h : run d (start delay d.fadeTime subs) blocks = some (out, s)) : ∀ p ∈ s.subs, 0 ≤ p.2.phase ∧ p.2.phase < 1 := by
  have key : ∀ (blocks : List (List Mods)) (s : State) (out : List ℚ) (s' : State), (∀ p ∈ s.subs, 0 ≤ p.2.phase ∧ p.2.phase < 1) →
      run d s blocks = some (out, s') → ∀ p ∈ s'.subs, 0 ≤ p.2.phase ∧ p.2.phase < 1 := by
    intro blocks
    induction blocks with
    | nil => intro s out s' hs h; simp only [run, Option.some.injEq, Prod.mk.injEq] at h; rw [← h.2]; exact hs
    | cons ms rest ih =>
      intro s out s' hs h
      unfold run at h
      rw [process_eq] at h
      by_cases he : s.subs = []
      · rw [if_pos he] at h
        simp only at h
        split at h
        · simp at h
        · rename_i o t hr
          simp only [Option.some.injEq, Prod.mk.injEq] at h
          rw [← h.2]
          exact ih { s with delay := s.delay - min ms.length s.delay } _ _ hs hr
      · rw [if_neg he] at h
        simp only at h
        split at h
        · simp at h
        · rename_i o t hr
          simp only [Option.some.injEq, Prod.mk.injEq] at h
          rw [← h.2]
          exact ih _ _ _ (tSubs_range d _ s.subs hs) hr
  refine key blocks _ out s ?_ h
  intro p hp
  simp only [start, List.mem_map] at hp
  obtain ⟨q, _, rfl⟩ := hp
  exact ⟨le_refl _, by norm_num⟩

/-- With a delay (a note in the middle of a block, `lfoN_delay`) an LFO that follows the beats is late until the end of the block: it
reads the positions from the beginning of the block. Here the host is at beat 1/8 in the second frame; with the block cut before
this frame the LFO is where it should be. -/
theorem lfo_beats_violated :
    (run ⟨1/8, 1, 0, 0, fun _ _ => 0, 1⟩ (start 1 0 [⟨.wave .ramp, 0, 1, 1⟩])
      [[{ freq := 0, phase := 0, playing := true }, { freq := 0, phase := 0, playing := true, position := 1/8 }]]).map (·.1) = some [0, -1] ∧
    (run ⟨1/8, 1, 0, 0, fun _ _ => 0, 1⟩ (start 1 0 [⟨.wave .ramp, 0, 1, 1⟩])
      [[{ freq := 0, phase := 0, playing := true }], [{ freq := 0, phase := 0, playing := true, position := 1/8 }]]).map (·.1) = some [0, -3/4] := by
  decide +kernel

end Verif.Lfo
