import Verif.Lfo.Props

/-! # The LFO with waves that sample and hold (C42) -/
namespace Verif.Lfo

/-! ### Specification -/

/-- The frame `m`, after the frames `before`, lies in the second half of its period. -/
def secondHalf (d : Desc) (sub : Sub) (before : List Mods) (m : Mods) : Bool :=
  decide (1/2 < Int.fract (Periods d sub before m + d.phase0 + m.phase))

/-- In which half of their period some frames lie. -/
def halves (d : Desc) (sub : Sub) (before : List Mods) : List Mods → List Bool
  | [] => []
  | m :: ms => secondHalf d sub before m :: halves d sub (before ++ [m]) ms

/-- How often a sequence changes, starting from a value. -/
def changes : Bool → List Bool → Nat
  | _, [] => 0
  | b, c :: cs => (if c = b then 0 else 1) + changes c cs

/-- The number that is held after some frames: the wave starts in the first half, with 0; each time a frame is in the other half
than the one before, the next random number is drawn. -/
def heldAfter (d : Desc) (nth : Nat) (sub : Sub) (before : List Mods) : ℚ :=
  match changes false (halves d sub [] before) with
  | 0 => 0
  | n + 1 => d.random nth n

/-- The value of the sub `nth` in the frame `m`, after the frames `before`. -/
def ValueAt (d : Desc) (nth : Nat) (sub : Sub) (before : List Mods) (m : Mods) : ℚ :=
  match sub.source with
  | .wave .randomSH => sub.offset + sub.scale * heldAfter d nth sub before
  | _ => Value sub (Int.fract (Periods d sub before m + d.phase0 + m.phase))

/-! ### Lemmas -/

theorem halves_append (d : Desc) (sub : Sub) (xs ys : List Mods) : ∀ before,
    halves d sub before (xs ++ ys) = halves d sub before xs ++ halves d sub (before ++ xs) ys := by
  induction xs with
  | nil => intro before; simp [halves]
  | cons x xs ih => intro before; simp [halves, ih]

theorem changes_append (l : List Bool) (c : Bool) : ∀ b, changes b (l ++ [c]) = changes b l + if c = (b :: l).getLast (by simp) then 0 else 1 := by
  induction l with
  | nil => intro b; by_cases h : c = b <;> simp [changes, h]
  | cons x l ih => intro b; simp [changes, ih, Nat.add_assoc]

/-- What the state of a sub says about the frames so far. -/
structure Follows (d : Desc) (nth : Nat) (sub : Sub) (before : List Mods) (s : SubState) : Prop where
  phase : s.phase = Int.fract (sub.ratio * d.samplePeriod * ((before.filter (fun m => ¬ (m.playing = true ∧ 0 < d.beats))).map (fun m => d.freq + m.freq)).sum)
  hold : sub.source = .wave .randomSH → s.hold = (false :: halves d sub [] before).getLast (by simp)
  draws : sub.source = .wave .randomSH → s.draws = changes false (halves d sub [] before)
  mem : sub.source = .wave .randomSH → s.mem = heldAfter d nth sub before

theorem Follows.step {d : Desc} {nth : Nat} {sub : Sub} {before : List Mods} {s : SubState} (h : Follows d nth sub before s) (m : Mods) :
    Follows d nth sub (before ++ [m]) (subFrame d nth sub s m) := by
  have hp : (subFrame d nth sub s m).phase = nextPhase d sub s m := rfl
  have hsh := shown_fract d sub before s m h.phase
  have hhalf : decide (shownPhase d sub s m > 1/2) = secondHalf d sub before m := by rw [hsh]; rfl
  have hh : halves d sub [] (before ++ [m]) = halves d sub [] before ++ [secondHalf d sub before m] := by
    rw [halves_append]; rfl
  have hch := changes_append (halves d sub [] before) (secondHalf d sub before m) false
  refine ⟨by rw [hp]; exact nextPhase_fract d sub before s m h.phase, ?_, ?_, ?_⟩
  all_goals
    intro hs
    have e1 := h.hold hs
    have e2 := h.draws hs
    have e3 := h.mem hs
    simp only [subFrame, holdUpdate, hs, hhalf]
  · rw [hh]
    split
    · simp
    · rename_i hn
      simp only [ne_eq, not_not] at hn
      simp [hn]
  · rw [hh, hch, ← e1]
    split
    · simp [e2]
    · rename_i hn
      simp [e2, not_not.mp hn]
  · unfold heldAfter
    rw [hh, hch, ← e1]
    split
    · simp [e2]
    · rename_i hn
      rw [e3, if_pos (not_not.mp hn)]
      simp [heldAfter]

theorem tSub_all (d : Desc) (nth : Nat) (sub : Sub) (ms : List Mods) : ∀ (before : List Mods) (s : SubState), Follows d nth sub before s →
    ∀ k (hk : k < ms.length), (tSub d nth sub s ms).1[k]? = some (ValueAt d nth sub (before ++ ms.take k) ms[k]) := by
  induction ms with
  | nil => intro before s _ k hk; simp at hk
  | cons m ms ih =>
    intro before s hs k hk
    cases k with
    | zero =>
      simp only [tSub, List.getElem?_cons_zero, List.take_zero, List.append_nil, List.getElem_cons_zero]
      unfold ValueAt
      by_cases hsrc : sub.source = .wave .randomSH
      · rw [hsrc]
        simp only
        rw [← hs.mem hsrc]
        unfold contr contribution
        rw [hsrc]
        rfl
      · have hv : ∀ a b : ℚ, (match sub.source with | .wave .randomSH => a | _ => b) = b := by
          intro a b
          split
          · exact absurd ‹_› hsrc
          · rfl
        rw [hv, contr_value sub hsrc s (p := shownPhase d sub s m) (wrap_mem _).1 (wrap_mem _).2]
        exact congrArg (fun p => some (Value sub p)) (shown_fract d sub before s m hs.phase)
    | succ k =>
      have := ih (before ++ [m]) (subFrame d nth sub s m) (hs.step m) k (by simpa using hk)
      simp only [tSub, List.getElem?_cons_succ, List.take_succ_cons, List.getElem_cons_succ]
      rw [this, List.append_assoc, List.singleton_append]

theorem tSubs_all (d : Desc) (ms : List Mods) (subs : List Sub) :
    ∀ (nth : Nat) k (hk : k < ms.length), (tSubs d ms nth (subs.map fun s => (s, ⟨0, 0, false, 0⟩))).1[k]? =
      some (((subs.zipIdx nth).map (fun p => ValueAt d p.2 p.1 (ms.take k) ms[k])).sum) := by
  induction subs with
  | nil => intro nth k hk; simp [tSubs, hk]
  | cons p rest ih =>
    intro nth k hk
    have h1 := tSub_all d nth p ms [] ⟨0, 0, false, 0⟩ ⟨by simp, fun _ => rfl, fun _ => rfl, fun _ => rfl⟩ k hk
    have h2 := ih (nth + 1) k hk
    simp only [List.map_cons, tSubs, List.getElem?_zipWith, h1, h2, List.zipIdx_cons, List.sum_cons, List.nil_append]

/-! ### The theorem -/

/-- **C42, shape, all waves.** As `lfo_shape`, with subs that draw random numbers: such a sub holds a number until the wave passes into the
other half of its period, and then draws the next one, which is heard from the frame after. -/
theorem lfo_shape_all (d : Desc) (hp : 0 < d.samplePeriod) (subs : List Sub) (hsub : subs ≠ [])
    (blocks : List (List Mods)) (k : Nat) (hk : k < blocks.flatten.length) :
    ∃ out s, run d (start 0 d.fadeTime subs) blocks = some (out, s) ∧ out[k]? = some (
      ((subs.zipIdx).map (fun p => ValueAt d p.2 p.1 (blocks.flatten.take k) blocks.flatten[k])).sum *
      (if 0 < d.fadeTime then min 1 (k * d.samplePeriod / d.fadeTime) else 1)) := by
  obtain ⟨s', h'⟩ := run_flat d blocks (start 0 d.fadeTime subs) rfl (by simpa [start] using hsub)
  refine ⟨_, s', h', ?_⟩
  have hsh : (tSubs d blocks.flatten 0 (start 0 d.fadeTime subs).subs).1[k]? = _ := tSubs_all d blocks.flatten subs 0 k hk
  obtain ⟨hk', hsh⟩ := List.getElem?_eq_some_iff.mp hsh
  by_cases hf : 0 < d.fadeTime
  · have h0 : (start 0 d.fadeTime subs).fadePos = 0 := by simp [start, hf]
    rw [h0, fade_shape d (by positivity) _ 0 (by norm_num) k hk', hsh, if_pos hf]
    congr 3
    ring
  · have h0 : (start 0 d.fadeTime subs).fadePos = 1 := by simp [start, hf]
    rw [h0, if_neg hf, mul_one, ← hsh]
    have : fadeBlock d 1 (tSubs d blocks.flatten 0 (start 0 d.fadeTime subs).subs).1 = ((tSubs d blocks.flatten 0 (start 0 d.fadeTime subs).subs).1, 1) := by
      cases (tSubs d blocks.flatten 0 (start 0 d.fadeTime subs).subs).1 <;> simp [fadeBlock]
    rw [this]
    exact List.getElem?_eq_getElem hk'

/-- An LFO of 1 Hz at 4 frames per second, which draws 1/2, 1/3, 1/4, ... -/
example : ((run ⟨1/4, 1, 0, 0, fun _ n => 1 / (n + 2), 0⟩ (start 0 0 [⟨.wave .randomSH, 0, 1, 1⟩])
    [List.replicate 5 { freq := 0, phase := 0 }, List.replicate 6 { freq := 0, phase := 0 }]).map (·.1))
    = some [0, 0, 0, 0, 1/2, 1/3, 1/3, 1/3, 1/4, 1/5, 1/5] := by decide +kernel

/-- In the first half of its first period such a sub has no random number: it is at its offset. -/
theorem hold_first (d : Desc) (hf : 0 < d.samplePeriod) (x y : ℚ) (rest : List Mods) (hd : d.phase0 = 0) (hs : d.fadeTime = 0) :
    ∃ out s, run d (start 0 0 [⟨.wave .randomSH, x, y, 1⟩]) [{ freq := 0, phase := 0 } :: rest] = some (out, s) ∧ out[0]? = some x := by
  obtain ⟨out, s, h1, h2⟩ := lfo_shape_all d hf [⟨.wave .randomSH, x, y, 1⟩] (by simp) [{ freq := 0, phase := 0 } :: rest] 0 (by simp)
  rw [hs] at h1 h2
  refine ⟨out, s, h1, ?_⟩
  rw [h2]
  simp [ValueAt, heldAfter, halves, changes]

end Verif.Lfo
