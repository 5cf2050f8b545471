import Mathlib.Algebra.Order.Field.Rat
import Mathlib.Tactic.Linarith

/-!
Model of `ADSREnvelope` (`src/sfizz/ADSREnvelope.{h,cpp}`).

Floats are exact rationals: rounding and NaN are not modelled (with a NaN step the loop of `getBlockInternal` would not end).
The rates computed by `secondsToLinRate` and `secondsToExpRate` (an exponential) are parameters; `int` overflow is not
modelled. What `updateValues` reads from the region and the MIDI state is a parameter, too.
-/
namespace Verif.Adsr

/-- `State` (ADSREnvelope.h:94-103). -/
inductive St where
  | delay | attack | hold | decay | sustain | release | fadeout | done
  deriving DecidableEq, Repr

/-- Order of the states. -/
def St.index : St → Nat
  | .delay => 0 | .attack => 1 | .hold => 2 | .decay => 3 | .sustain => 4 | .release => 5 | .fadeout => 6 | .done => 7

/-- The envelope (ADSREnvelope.h:87, 104-122). `sustainThreshold` is always `sustain + virtuallyZero` (line 68). -/
structure Env where
  sampleRate : ℚ
  state : St := .done
  cur : ℚ := 0
  delay : Int := 0
  attackStep : ℚ := 0
  decayRate : ℚ := 0
  releaseRate : ℚ := 0
  hold : Int := 0
  start : ℚ := 0
  sustain : ℚ := 0
  releaseDelay : Int := 0
  shouldRelease : Bool := false
  freeRunning : Bool := false
  delta : ℚ := 0

/-- `config::virtuallyZero` (Config.h:50). -/
def vz : ℚ := 1 / 1000
/-- `config::egReleaseThreshold` (Config.h:91). -/
def thr : ℚ := 1 / 10000
/-- `sampleRate * config::egTransitionTime` (Config.h:96). -/
def Env.trans (e : Env) : ℚ := e.sampleRate * (1 / 20)

/-- `while (count < size && delay-- > 0)` (ADSREnvelope.cpp:123-126): frames written and `delay`. -/
def delayLoop : Nat → Int → Nat × Int
  | 0, d => (0, d)
  | n + 1, d => if d > 0 then ((delayLoop n (d - 1)).1 + 1, (delayLoop n (d - 1)).2) else (0, d - 1)

/-- `while (count < size && (currentValue += step) < 1)` (ADSREnvelope.cpp:131-132). -/
def attackLoop (step : ℚ) : Nat → ℚ → List ℚ × ℚ
  | 0, c => ([], c)
  | n + 1, c =>
    if c + step < 1 then ((c + step) :: (attackLoop step n (c + step)).1, (attackLoop step n (c + step)).2) else ([], c + step)

/-- `while (count < size && (currentValue *= rate) > bound)` (ADSREnvelope.cpp:145-146). -/
def decayLoop (rate bound : ℚ) : Nat → ℚ → List ℚ × ℚ
  | 0, c => ([], c)
  | n + 1, c =>
    if c * rate > bound then ((c * rate) :: (decayLoop rate bound n (c * rate)).1, (decayLoop rate bound n (c * rate)).2)
    else ([], c * rate)

/-- The loop of the sustain (ADSREnvelope.cpp:158-162). -/
def sustainLoop (sustain delta : ℚ) : Nat → ℚ → List ℚ × ℚ
  | 0, c => ([], c)
  | n + 1, c =>
    let c := if c > sustain then c + delta else c
    (c :: (sustainLoop sustain delta n c).1, (sustainLoop sustain delta n c).2)

/-- The loop of the fade-out (ADSREnvelope.cpp:176-177). -/
def fadeLoop (delta : ℚ) : Nat → ℚ → List ℚ × ℚ
  | 0, c => ([], c)
  | n + 1, c =>
    if c + delta > 0 then ((c + delta) :: (fadeLoop delta n (c + delta)).1, (fadeLoop delta n (c + delta)).2) else ([], c + delta)

/-- The release part at the head of a turn (ADSREnvelope.cpp:100-117): the envelope and `size`. -/
def prepare (e : Env) (size : Nat) : Env × Nat :=
  if e.shouldRelease then
    if e.releaseDelay > 0 then (e, min size e.releaseDelay.toNat)
    else if e.releaseDelay = 0 ∧ e.delay ≤ 0 then
      if e.delay < 0 then ({ e with state := .release, releaseDelay := -1 }, size)
      else ({ e with releaseDelay := -1 }, 1)
    else if e.releaseDelay = -1 ∧ e.state.index < 5 ∧ e.delay ≤ 0 then ({ e with state := .release }, size)
    else (e, size)
  else (e, size)

/-- `previousValue`: the last value written in the release, or the value before (ADSREnvelope.cpp:165-167). -/
def previous (c : ℚ) (out : List ℚ) : ℚ := (out.getLast?).getD c

/-- The switch (ADSREnvelope.cpp:121-188): frames written and envelope. -/
def segment (e : Env) (size : Nat) : List ℚ × Env :=
  match e.state with
  | .delay =>
    let r := delayLoop size e.delay
    let e := { e with delay := r.2, cur := if r.1 > 0 then e.start else e.cur }
    (List.replicate r.1 e.start, if r.2 ≤ 0 then { e with state := .attack } else e)
  | .attack =>
    let r := attackLoop e.attackStep size e.cur
    (r.1, if r.2 ≥ 1 then { e with cur := 1, state := .hold } else { e with cur := r.2 })
  | .hold =>
    let r := delayLoop size e.hold
    let e := { e with hold := r.2 }
    (List.replicate r.1 e.cur, if r.2 ≤ 0 then { e with state := .decay } else e)
  | .decay =>
    let r := decayLoop e.decayRate e.sustain size e.cur
    (r.1, if r.2 ≤ e.sustain + vz then
        { e with state := .sustain, cur := max e.sustain r.2, delta := (e.sustain - max e.sustain r.2) / e.trans }
      else { e with cur := r.2 })
  | .sustain =>
    if e.shouldRelease = false ∧ e.freeRunning = true then ([], { e with shouldRelease := true })
    else
      let r := sustainLoop e.sustain e.delta size e.cur
      (r.1, { e with cur := r.2 })
  | .release =>
    let r := decayLoop e.releaseRate thr size e.cur
    (r.1, if r.2 ≤ thr then
        { e with state := .fadeout, cur := previous e.cur r.1, delta := -(max thr (previous e.cur r.1)) / e.trans }
      else { e with cur := r.2 })
  | .fadeout =>
    let r := fadeLoop e.delta size e.cur
    (r.1, if r.2 ≤ 0 then { e with state := .done, cur := 0 } else { e with cur := r.2 })
  | .done => (List.replicate size 0, { e with cur := 0 })

/-- End of a turn (ADSREnvelope.cpp:190-191). -/
def finish (e : Env) (count : Nat) : Env :=
  if e.shouldRelease then { e with releaseDelay := max (-1) (e.releaseDelay - count) } else e

/-- A turn of the loop of `getBlockInternal` with `n` frames to write. -/
def turn (e : Env) (n : Nat) : List ℚ × Env :=
  let p := prepare e n
  let s := segment p.1 p.2
  (s.1, finish s.2 s.1.length)

/-- Progress through the states. -/
def rank (e : Env) : Nat := 2 * e.state.index + (if e.shouldRelease then 1 else 0)

theorem delayLoop_zero {n : Nat} {d : Int} (hn : 0 < n) (h : (delayLoop n d).1 = 0) : (delayLoop n d).2 ≤ -1 := by
  cases n with
  | zero => omega
  | succ n =>
    unfold delayLoop at h ⊢
    by_cases hd : d > 0
    · rw [if_pos hd] at h; simp at h
    · rw [if_neg hd]; show d - 1 ≤ -1; omega

theorem attackLoop_nil {s : ℚ} {n : Nat} {c : ℚ} (hn : 0 < n) (h : (attackLoop s n c).1 = []) : (attackLoop s n c).2 ≥ 1 := by
  cases n with
  | zero => omega
  | succ n =>
    unfold attackLoop at h ⊢
    by_cases hd : c + s < 1
    · rw [if_pos hd] at h; simp at h
    · rw [if_neg hd]; exact not_lt.mp hd

theorem decayLoop_nil {r b : ℚ} {n : Nat} {c : ℚ} (hn : 0 < n) (h : (decayLoop r b n c).1 = []) : (decayLoop r b n c).2 ≤ b := by
  cases n with
  | zero => omega
  | succ n =>
    unfold decayLoop at h ⊢
    by_cases hd : c * r > b
    · rw [if_pos hd] at h; simp at h
    · rw [if_neg hd]; exact not_lt.mp hd

theorem fadeLoop_nil {d : ℚ} {n : Nat} {c : ℚ} (hn : 0 < n) (h : (fadeLoop d n c).1 = []) : (fadeLoop d n c).2 ≤ 0 := by
  cases n with
  | zero => omega
  | succ n =>
    unfold fadeLoop at h ⊢
    by_cases hd : c + d > 0
    · rw [if_pos hd] at h; simp at h
    · rw [if_neg hd]; exact not_lt.mp hd

/-- A turn that writes nothing moves to a later state. -/
theorem segment_progress (e : Env) (size : Nat) (hn : 0 < size) (h : (segment e size).1 = []) : rank e < rank (segment e size).2 := by
  unfold segment at h ⊢
  cases hs : e.state with
  | delay =>
    simp only [hs, List.replicate_eq_nil_iff] at h ⊢
    have := delayLoop_zero hn h
    rw [if_pos (by omega)]
    simp [rank, hs, St.index]
  | attack =>
    simp only [hs] at h ⊢
    rw [if_pos (attackLoop_nil hn h)]
    simp [rank, hs, St.index]
  | hold =>
    simp only [hs, List.replicate_eq_nil_iff] at h ⊢
    have := delayLoop_zero hn h
    rw [if_pos (by omega)]
    simp [rank, hs, St.index]
  | decay =>
    simp only [hs] at h ⊢
    have := decayLoop_nil hn h
    rw [if_pos (by unfold vz; linarith)]
    simp [rank, hs, St.index]
  | sustain =>
    simp only [hs] at h ⊢
    by_cases hf : e.shouldRelease = false ∧ e.freeRunning = true
    · rw [if_pos hf]
      simp [rank, hs, St.index, hf.1]
    · rw [if_neg hf] at h
      cases size with
      | zero => omega
      | succ n => simp [sustainLoop] at h
  | release =>
    simp only [hs] at h ⊢
    rw [if_pos (decayLoop_nil hn h)]
    simp [rank, hs, St.index]
  | fadeout =>
    simp only [hs] at h ⊢
    rw [if_pos (fadeLoop_nil hn h)]
    simp [rank, hs, St.index]
  | done =>
    simp only [hs, List.replicate_eq_nil_iff] at h
    omega

theorem index_release : St.index .release = 5 := rfl

theorem rank_le (e : Env) : rank e ≤ 15 := by
  unfold rank
  cases e.state <;> simp only [St.index] <;> split <;> omega

theorem prepare_size (e : Env) (n : Nat) (hn : 0 < n) : 0 < (prepare e n).2 ∧ (prepare e n).2 ≤ n := by
  unfold prepare
  split
  · split
    · constructor <;> dsimp only <;> omega
    · split
      · split
        · exact ⟨hn, le_refl _⟩
        · exact ⟨Nat.one_pos, hn⟩
      · split <;> exact ⟨hn, le_refl _⟩
  · exact ⟨hn, le_refl _⟩

theorem prepare_rank (e : Env) (n : Nat) : (e.releaseDelay = 0 ∧ (prepare e n).1.releaseDelay = -1) ∨
    ((prepare e n).1.releaseDelay = e.releaseDelay ∧ rank e ≤ rank (prepare e n).1) := by
  unfold prepare
  split
  · split
    · exact Or.inr ⟨rfl, le_refl _⟩
    · split
      · rename_i h
        split
        · exact Or.inl ⟨h.1, rfl⟩
        · exact Or.inl ⟨h.1, rfl⟩
      · split
        · rename_i h
          refine Or.inr ⟨rfl, ?_⟩
          have := h.2.1
          unfold rank
          dsimp only
          rw [index_release]
          omega
        · exact Or.inr ⟨rfl, le_refl _⟩
  · exact Or.inr ⟨rfl, le_refl _⟩

theorem segment_releaseDelay (e : Env) (size : Nat) : (segment e size).2.releaseDelay = e.releaseDelay := by
  unfold segment
  split <;> dsimp only <;> split <;> rfl

/-- Second component of the measure. -/
def zeroDelay (e : Env) : Nat := if e.releaseDelay = 0 then 1 else 0

/-- A turn writes frames or progresses. -/
theorem turn_progress (e : Env) (n : Nat) (hn : 0 < n) (h : (turn e n).1 = []) :
    zeroDelay (turn e n).2 < zeroDelay e ∨ (zeroDelay (turn e n).2 = zeroDelay e ∧ rank e < rank (turn e n).2) := by
  unfold turn at h ⊢
  dsimp only at h ⊢
  have hp := segment_progress (prepare e n).1 (prepare e n).2 (prepare_size e n hn).1 h
  rw [h, List.length_nil]
  have hd := segment_releaseDelay (prepare e n).1 (prepare e n).2
  generalize (segment (prepare e n).1 (prepare e n).2).2 = s at hp hd
  have hr : rank (finish s 0) = rank s := by unfold finish; split <;> rfl
  have hf : (finish s 0).releaseDelay = s.releaseDelay ∨ (s.releaseDelay < -1 ∧ (finish s 0).releaseDelay = -1) := by
    unfold finish
    split
    · by_cases hl : s.releaseDelay < -1
      · right; refine ⟨hl, ?_⟩; dsimp only; omega
      · left; dsimp only; omega
    · exact Or.inl rfl
  rw [hr]
  unfold zeroDelay
  rcases prepare_rank e n with ⟨h1, h2⟩ | ⟨h1, h2⟩
  · left
    rw [if_pos h1, if_neg (by omega)]
    exact Nat.one_pos
  · right
    refine ⟨?_, by omega⟩
    by_cases h0 : e.releaseDelay = 0
    · rw [if_pos h0, if_pos (by omega)]
    · rw [if_neg h0, if_neg (by omega)]

theorem delayLoop_le (n : Nat) (d : Int) : (delayLoop n d).1 ≤ n := by
  induction n generalizing d with
  | zero => exact le_refl _
  | succ n ih =>
    unfold delayLoop
    split
    · exact Nat.succ_le_succ (ih _)
    · exact Nat.zero_le _

/-- `getBlockInternal` (ADSREnvelope.cpp:88-203) for `n` frames. That the recursion is well founded is the termination of
its loop. -/
def block (e : Env) (n : Nat) : List ℚ × Env :=
  if h : n = 0 then ([], e)
  else
    let t := turn e n
    let r := block t.2 (n - t.1.length)
    (t.1 ++ r.1, r.2)
termination_by (n, zeroDelay e, 16 - rank e)
decreasing_by
  by_cases ht : (turn e n).1 = []
  · rw [ht, List.length_nil, Nat.sub_zero]
    apply Prod.Lex.right
    rcases turn_progress e n (Nat.pos_of_ne_zero h) ht with hz | ⟨hz, hr⟩
    · exact Prod.Lex.left _ _ hz
    · rw [hz]
      apply Prod.Lex.right
      have := rank_le (turn e n).2
      omega
  · apply Prod.Lex.left
    have : 0 < (turn e n).1.length := List.length_pos_iff.mpr ht
    omega

/-! ### Parameters -/

/-- What `updateValues` computes (ADSREnvelope.cpp:58-69). -/
structure Params where
  delay : Int
  attackStep : ℚ
  decayRate : ℚ
  releaseRate : ℚ
  hold : Int
  sustain : ℚ
  start : ℚ

/-- `updateValues(delay)` (ADSREnvelope.cpp:58-69); the parameters are those read at that delay. -/
def update (e : Env) (delay : Int) (p : Params) : Env :=
  { e with
    delay := if e.state = .delay then delay + p.delay else e.delay
    attackStep := p.attackStep
    decayRate := p.decayRate
    releaseRate := p.releaseRate
    hold := p.hold
    sustain := max (min p.sustain 1) 0
    start := max (min p.start 1) 0 }

/-- `reset` (ADSREnvelope.cpp:41-56); `oneShotOsc` for a region that is a one-shot oscillator. -/
def reset (e : Env) (sampleRate : ℚ) (delay : Int) (p : Params) (oneShotOsc : Bool) : Env :=
  let e := update { e with sampleRate := sampleRate, state := .delay } delay p
  { e with releaseDelay := 0, shouldRelease := false, freeRunning := decide (e.sustain ≤ 32 / 10000) || oneShotOsc, cur := e.start }

/-- `startRelease` (ADSREnvelope.cpp:205-209). -/
def startRelease (e : Env) (d : Int) : Env := { e with shouldRelease := true, releaseDelay := d }

/-- `cancelRelease` (ADSREnvelope.cpp:211-217). -/
def cancelRelease (e : Env) : Env := { e with state := .sustain, shouldRelease := false, releaseDelay := -1 }

/-- The loop of `getBlock` with dynamic updates (ADSREnvelope.cpp:73-82); `ps` gives the parameters at a frame of the block. -/
def dynamicBlock (e : Env) (ps : Nat → Params) (processed remaining : Nat) : List ℚ × Env :=
  if h : remaining = 0 then ([], e)
  else
    let chunk := min 16 remaining
    let b := block (update e processed (ps processed)) chunk
    let r := dynamicBlock b.2 ps (processed + chunk) (remaining - chunk)
    (b.1 ++ r.1, r.2)
termination_by remaining
decreasing_by omega

end Verif.Adsr
