import Verif.Engine.NotePoly

/-!
# Timer conditions: `lotimer` and `hitimer` (C74)

A region with a timer range plays only if the time since the latest start in its group is in the range.
-/
namespace Verif.Engine

open Verif.Layer (Region)

variable {e : Env}

/-- The timer condition, when the clock has not wrapped and the latest start of the group is not in the future: the time since then,
in seconds, is at least the lower bound and below the upper one. -/
theorem timer_condition_partial (c : Cfg) (s : E) (r : Region) (delay : Int) (h0 : 0 ≤ delay) (hc : s.midi.internalClock + delay < 2 ^ 32)
    (hl : ((s.vm.groups r.group).recent : Int) ≤ s.midi.internalClock + delay) :
    timerOk c s r delay = true ↔
      (r.useTimerRange = true →
        r.timerRange.start ≤ (((s.midi.internalClock + delay - (s.vm.groups r.group).recent : Int)) : ℚ) / c.sampleRate ∧
        (((s.midi.internalClock + delay - (s.vm.groups r.group).recent : Int)) : ℚ) / c.sampleRate < r.timerRange.stop) := by
  have e1 : ((Midi.clockPlus s.midi.internalClock delay : Nat) : Int) = s.midi.internalClock + delay := by
    unfold Midi.clockPlus
    omega
  have e2 : (((Midi.clockPlus s.midi.internalClock delay : Nat) : Int) - (s.vm.groups r.group).recent) % 2 ^ 32 =
      s.midi.internalClock + delay - (s.vm.groups r.group).recent := by
    rw [e1]; omega
  unfold timerOk withinTimer Range.contains
  rw [e2]
  cases r.useTimerRange <;> simp

/-- What a start records: if a voice is taken for a region that is not disabled, the time of its start becomes the latest of the group;
the other groups keep theirs. -/
theorem timer_start {s s' : VM} (h : VInv e s) (hl : LimitsOk e s) (m : Midi.State) (l : Nat) (d : Int) (t : Trig) (head head' : Option Nat)
    (hr : startVoice e s m l d t head = some (s', head')) :
    (∀ g, g ≠ (e.regions l).group → (s'.groups g).recent = (s.groups g).recent) ∧
      ((s'.groups (e.regions l).group).recent =
        if (e.regions l).disabled = true ∨ (∀ s1, checkPolyphony e s l d t = some s1 → findFreeVoice s1 = none) then (s.groups (e.regions l).group).recent
        else Midi.clockPlus m.internalClock (e.startEgDelay l (max d 0))) := by
  obtain ⟨s1, a1, b1, _⟩ := checkPolyphony_ok h hl l d t
  have h1 := h.soft b1.soft
  unfold startVoice at hr
  rw [a1] at hr ⊢
  simp only [Option.bind_eq_bind, Option.bind_some, Option.some.injEq, forall_eq'] at hr ⊢
  have hd0 : (if d < 0 then 0 else d : Int) = max d 0 := by split <;> omega
  cases hf : findFreeVoice s1 with
  | none =>
    rw [hf] at hr; cases hr
    simp [b1.soft.links.groups]
  | some i =>
    rw [hf] at hr
    obtain ⟨s2, a2, h2, v2, sz2, _, _, _, g2⟩ := reset_ok e h1 i
    simp only [a2, Option.bind_some] at hr
    have hst : (s2.voices i).state = .idle := (h2.idle i).mpr (by rw [v2, upd_same]; rfl)
    have g2' : ∀ g, (s2.groups g).recent = (s.groups g).recent := fun g => by rw [g2, b1.soft.links.groups]
    rw [Option.bind_eq_some_iff] at hr
    obtain ⟨⟨s3, ok⟩, a3, a4⟩ := hr
    have hg : s'.groups = s3.groups := by
      cases ok with
      | false => simp only [Bool.false_eq_true, if_false] at a4; cases a4; rfl
      | true =>
        simp only [if_true] at a4
        injection a4 with a4
        have : s' = (addToRing s3 head i).1 := (congrArg Prod.fst a4).symm
        rw [this]; rfl
    rw [hg]
    unfold voiceStart at a3
    simp only [setVoice_self] at a3
    have hv1s : (armed e m l t (s2.voices i)).state = .idle := hst
    have hv1l : (armed e m l t (s2.voices i)).layer = some l := rfl
    generalize armed e m l t (s2.voices i) = v1 at a3 hv1s hv1l
    by_cases hd : (e.regions l).disabled = true
    · simp only [hd, if_true] at a3
      have hsw : switchState e (setVoice s2 i v1) i .cleanMeUp = some (setVoice s2 i { v1 with state := .cleanMeUp }) := by
        unfold switchState
        rw [if_neg (by rw [setVoice_self, hv1s]; decide)]
        simp only [setVoice_self, setVoice_setVoice]
      rw [hsw] at a3
      cases a3
      simp only [hd, true_or, if_true]
      exact ⟨fun g _ => g2' g, g2' _⟩
    · simp only [hd, Bool.false_eq_true, if_false] at a3
      simp only [setVoice_setVoice, hd0] at a3
      have hv2s : (timed e m l (max d 0) v1).state = .idle := hv1s
      have hv2l : (timed e m l (max d 0) v1).layer = some l := hv1l
      have hv2t : (timed e m l (max d 0) v1).startTimestamp = Midi.clockPlus m.internalClock (e.startEgDelay l (max d 0)) := rfl
      generalize timed e m l (max d 0) v1 = w at a3 hv2s hv2l hv2t
      have hsw : switchState e (setVoice s2 i w) i .playing = some (onPlaying e (setVoice s2 i { w with state := .playing }) i l) := by
        unfold switchState
        rw [if_neg (by rw [setVoice_self, hv2s]; decide)]
        simp only [setVoice_self, setVoice_setVoice]
        split
        · rename_i hn; rw [hv2l] at hn; cases hn
        · rename_i l' hn; rw [hv2l] at hn; cases hn; rfl
      rw [hsw] at a3
      simp only [Option.bind_eq_bind, Option.bind_some] at a3
      have hg3 : s3.groups = (onPlaying e (setVoice s2 i { w with state := .playing }) i l).groups := by
        split at a3
        · have hsw2 : switchState e (onPlaying e (setVoice s2 i { w with state := .playing }) i l) i .cleanMeUp =
              some (setVoice (onPlaying e (setVoice s2 i { w with state := .playing }) i l) i { w with state := .cleanMeUp }) := by
            have hv : (onPlaying e (setVoice s2 i { w with state := .playing }) i l).voices i = { w with state := .playing } := setVoice_self _ _ _
            unfold switchState
            rw [if_neg (by rw [hv]; simp)]
            simp only [hv]
          rw [hsw2] at a3
          cases a3; rfl
        · cases a3; rfl
      have hne : ¬ ((e.regions l).disabled = true ∨ some i = (none : Option Nat)) := by simp [hd]
      rw [if_neg hne, hg3]
      unfold onPlaying
      simp only [setVoice_self]
      refine ⟨fun g hgn => ?_, ?_⟩
      · rw [upd_other _ hgn]; exact g2' g
      · rw [upd_same]; exact hv2t

/-- Outside the range the region does not start on a note: the voices do not change. -/
theorem timer_layer (c : Cfg) (s : E) (delay note : Int) (velocity rand : ℚ) (head : Option Nat) (l : Nat)
    (ht : timerOk c s (c.regions l) delay = false) :
    ∃ s', noteOnLayer c delay note velocity rand (s, head) l = some (s', head) ∧ s'.vm = s.vm := by
  unfold noteOnLayer
  have : timerOk c (setLayer s l (Layer.registerNoteOn (c.regions l) s.midi (s.layers l) note velocity rand).1) (c.regions l) delay = false := ht
  simp only [this, Bool.and_false, Bool.false_eq_true, if_false]
  exact ⟨_, rfl, rfl⟩

/-- Two regions in a group: one plays on key 60, the other on key 62 only between a half and one second after the latest start. -/
def timed2 (ahead : Int) : Cfg :=
  { demo [{ keyRange := ⟨60, 60⟩ }, { keyRange := ⟨62, 62⟩, useTimerRange := true, timerRange := ⟨1 / 2, 1⟩ }] with
    startEgDelay := fun l d => if l = 0 then d + ahead else d }

/-- A block of frames. -/
def quiet (frames : Nat) : Op := .render frames (fun _ => ⟨none, false, false, 0⟩)

/-- After 10 000 frames (0.2 s) it is too early, after 30 000 (0.6 s) it plays, after 50 000 it is too late. -/
example : ([10000, 30000, 50000].map (fun n =>
    (run (timed2 0) (demoLoad (timed2 0) 8 8) [.noteOn 0 60 1, quiet n, .noteOn 0 62 1]).map soundingVoices)) =
    [some [0], some [0, 1], some [0]] := by decide +kernel

/-- The property fails when the latest start is delayed (`delay`): until it sounds, the unsigned time since then wraps and counts as
more than a day. With a start 1 s ahead, a region that asks for at least 100 s since the latest start plays at once. -/
theorem timer_delay_violated :
    let c : Cfg := { demo [{ keyRange := ⟨60, 60⟩ }, { keyRange := ⟨62, 62⟩, useTimerRange := true, timerRange := ⟨100, 1000000⟩ }] with
      startEgDelay := fun l d => if l = 0 then d + 48000 else d }
    ((run c (demoLoad c 8 8) [.noteOn 0 60 1, quiet 1000, .noteOn 0 62 1]).map soundingVoices) = some [0, 1] := by decide +kernel

end Verif.Engine
