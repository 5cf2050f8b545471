import Verif.Engine.Heard
import Verif.Engine.Releases
import Verif.Engine.ControllerTrigger

/-! C12 and C16: when a region hears a note-off (`hears`, which the theorems on releases use), from the calls alone (Layer.cpp:85-108). -/
namespace Verif.Engine

open Verif.Layer (Region)
open Verif.Range (containsWithEnd)

variable (c : Cfg)

/-! ### Specification -/

/-- The sequence condition between note-ons, when `n` of them fell into the key range of the region: the turn of the region came with the
last of them; before the first, a region with a sequence has no turn. -/
def turnHolds (r : Region) (n : Nat) : Prop :=
  if n = 0 then r.usesSequenceSwitches = false else (n - 1) % r.sequenceLength + 1 = r.sequencePosition

/-- All the conditions of region `r` for hearing a note-off of key `n`, with random number `u`, after the calls `ops` to a fresh
synthesizer with default key-switch `sw`. The velocity is the one the key was pressed with. -/
def ReleaseWanted (sw : Option Int) (ops : List Op) (r : Region) (n : Nat) (u : ℚ) : Prop :=
  r.triggerOnNote = true ∧
  containsWithEnd r.keyRange (n : Int) = true ∧
  containsWithEnd r.velocityRange (latest (struckKey c n) 0 ops) = true ∧
  randHolds r u ∧
  containsWithEnd r.polyAftertouchRange (latest (pressed n) 0 ops) = true ∧
  switchHolds r (lastSwitch c sw ops) = true ∧
  previousHolds r ((ops.filterMap pressedKey).getLast?) = true ∧
  turnHolds r (matching r ops) ∧
  containsWithEnd r.bendRange (latest sentBend 0 ops) = true ∧
  containsWithEnd r.programRange (latest sentProgram 0 ops) = true ∧
  containsWithEnd r.aftertouchRange (latest sentAftertouch 0 ops) = true ∧
  ∀ k, k < 512 → ∀ range, r.ccConditions k = some range → containsWithEnd range (latest (sentCC c k) 0 ops) = true

variable {c}

/-! ### The sequence between note-ons -/

/-- The flag of the sequence is that of the last turn. -/
def SeqOk (r : Region) (k : Core) : Prop := k.sequenceSwitched = true ↔ turnHolds r k.sequenceCounter

theorem SeqOk.same {r : Region} {k k' : Core} (h : SeqOk r k) (h1 : k'.sequenceSwitched = k.sequenceSwitched)
    (h2 : k'.sequenceCounter = k.sequenceCounter) : SeqOk r k' := by
  unfold SeqOk at h ⊢; rw [h1, h2]; exact h

theorem seqOk_seqCore (r : Region) (k : Core) : SeqOk r (seqCore r k) := by
  unfold SeqOk seqCore turnHolds
  simp only [decide_eq_true_eq, Nat.add_eq_zero_iff, one_ne_zero, and_false, if_false, Nat.add_sub_cancel]
  omega

theorem SeqOk.ccCore {r : Region} {k : Core} (h : SeqOk r k) (cc : Nat) (v u : ℚ) (arg : Int) : SeqOk r (ccCore r k cc v u arg) := by
  unfold Engine.ccCore
  split
  · exact seqOk_seqCore r _
  · exact h.same rfl rfl

theorem SeqOk.noteOnCore {r : Region} {k : Core} (h : SeqOk r k) (n : Int) : SeqOk r (noteOnCore r n k) := by
  have key : ∀ k' : Core, SeqOk r k' → SeqOk r (prevCore r n k') := by
    intro k' hk
    unfold prevCore
    split <;> first | exact hk | exact hk.same rfl rfl
  unfold Engine.noteOnCore
  apply key
  split
  · exact seqOk_seqCore r k
  · exact h

theorem SeqOk.hdcc {s s1 s' : E} {l : Nat} {d : Int} {k : Nat} {v : ℚ} {asMidi : Bool} {arg : Int}
    (h : SeqOk (c.regions l) (core (s.layers l))) (h1 : (core (s1.layers l)).sequenceSwitched = (core (s.layers l)).sequenceSwitched)
    (h2 : (core (s1.layers l)).sequenceCounter = (core (s.layers l)).sequenceCounter)
    (hn : isCommand asMidi k = false) (hs : performHdcc c s1 d k v asMidi arg = some s') :
    SeqOk (c.regions l) (core (s'.layers l)) := by
  obtain ⟨_, _, h3⟩ := performHdcc_core hn hs
  rw [h3]
  split
  · exact (h.same h1 h2).ccCore _ _ _ _
  · exact h.same h1 h2

theorem SeqOk.step {s s' : E} {l : Nat} {op : Op} (h : SeqOk (c.regions l) (core (s.layers l))) (hl : l < c.numLayers)
    (hs : step c s op = some s') : SeqOk (c.regions l) (core (s'.layers l)) := by
  have quiet : core (s'.layers l) = core (s.layers l) → SeqOk (c.regions l) (core (s'.layers l)) := fun e => by rw [e]; exact h
  cases op with
  | noteOn d n v =>
    simp only [Engine.step, hdNoteOn] at hs
    obtain ⟨_, _, h3⟩ := noteOnDispatch_core hs
    rw [h3, if_pos hl]
    apply SeqOk.noteOnCore
    split <;> exact h
  | noteOff d n v => exact quiet ((hdNoteOff_core hs).2 l)
  | cc d k v =>
    by_cases hk : isCommand true k = true
    · simp only [isCommand, Bool.true_and, Bool.or_eq_true, decide_eq_true_eq] at hk
      by_cases h121 : k = 121
      · subst h121
        have hs' : s' = resetAllControllers c s d := by
          simp only [Engine.step, performHdcc, true_and, if_true] at hs
          cases hs; rfl
        have hcore : core (s'.layers l) = resetCore (c.regions l) c.defaultCC (core (s.layers l)) := by
          rw [hs']
          unfold resetAllControllers
          simp only
          rw [eachLayer_core _ _ hl, (resetLayerCCs_core _ _ _).1]
          rfl
        obtain ⟨_, _, _, _, q5, _, _, _, _, q10⟩ := resetCore_fold (c.regions l) c.defaultCC (core (s.layers l)) 512
        rw [hcore]
        exact h.same q5 q10
      · have hk' : k = 120 ∨ k = 123 := by omega
        obtain ⟨_, _, p3⟩ := performHdcc_off hk' hs
        exact quiet (by rw [p3])
    · exact h.hdcc rfl rfl (by simpa using hk) hs
  | automate d k v => exact h.hdcc rfl rfl (by simp [isCommand]) hs
  | pitchWheel d v =>
    simp only [Engine.step, hdPitchWheel] at hs
    refine h.hdcc ?_ ?_ (by simp [isCommand]) hs <;> rw [eachLayer_core _ _ hl, registerPitchWheel_core]
  | program p =>
    simp only [Engine.step, programChange] at hs
    cases hs
    rw [eachLayer_core _ _ hl, registerProgram_core]
    exact h.same rfl rfl
  | channelAftertouch d v =>
    simp only [Engine.step, hdChannelAftertouch] at hs
    refine h.hdcc ?_ ?_ (by simp [isCommand]) hs <;> rw [eachLayer_core _ _ hl, registerAftertouch_core]
  | polyAftertouch d n v =>
    simp only [Engine.step, hdPolyAftertouch] at hs
    exact h.hdcc (s1 := { s with midi := Midi.polyAftertouch s.midi d n v }) rfl rfl (by simp [isCommand]) hs
  | render f snd =>
    apply quiet
    simp only [Engine.step, render] at hs
    split at hs
    · cases hs; rfl
    · rw [Option.bind_eq_bind, Option.bind_eq_some_iff] at hs
      obtain ⟨s1, k1, k2⟩ := hs
      cases k2
      show core (s1.layers l) = _
      rw [(eachVoiceM_frame k1).2.2.1]
  | allSoundOff => exact quiet (by rw [(eachVoiceM_frame hs).2.2.1])
  | setNumVoices n =>
    apply quiet
    simp only [Engine.step] at hs
    cases hs
    unfold setNumVoices
    split <;> rfl

theorem load_seq (m : Midi.State) (sw : Option Int) (n : Nat) (gl sl : Nat → Nat) (l : Nat) :
    SeqOk (c.regions l) (core ((load c m sw n gl sl).layers l)) := by
  obtain ⟨h1, _⟩ := loadLayer_core (c := c) m sw l
  have h1' : core ((load c m sw n gl sl).layers l) = _ := h1
  obtain ⟨_, _, _, _, q5, _, _, _, _, q10⟩ := resetCore_fold (c.regions l) (Layer.ccValue m)
    (core (Layer.initializeActivations (c.regions l) {})) Layer.numCCs
  clear h1
  generalize (List.range Layer.numCCs).foldl (fun k cc => condCore (c.regions l) k cc (Layer.ccValue m cc))
      (core (Layer.initializeActivations (c.regions l) {})) = k0 at q5 q10 h1'
  rw [h1']
  refine SeqOk.same (k := core (Layer.initializeActivations (c.regions l) {})) ?_ q5 q10
  unfold SeqOk turnHolds core Layer.initializeActivations
  simp

theorem sequence_after (m : Midi.State) (sw : Option Int) (n : Nat) (gl sl : Nat → Nat) (ops : List Op) (s : E)
    (hr : run c (load c m sw n gl sl) ops = some s) {l : Nat} (hl : l < c.numLayers) : SeqOk (c.regions l) (core (s.layers l)) :=
  history_induction (P := fun _ s => SeqOk (c.regions l) (core (s.layers l))) (load_seq m sw n gl sl l)
    (fun _ _ _ _ _ h hs => h.step hl hs) ops s hr

/-! ### The theorem -/

/-- C12, C16. On a fresh synthesizer, after every history whose events come in order in each block, a region hears a note-off of a key
exactly if all its conditions hold for the last values received; the sequence condition is that of the last note-on in its key range.
Missing: what is missing in `note_triggers_iff_partial` (resets of all controllers, tempo conditions, `sw_up`/`sw_down`, controllers set by
notes), and regions that also trigger on controllers. -/
theorem hears_history_partial (sw : Option Int) (n : Nat) (gl sl : Nat → Nat) (ops : List Op) (s : E)
    (hr : run c (load c Midi.init sw n gl sl) ops = some s) (hreset : ∀ op ∈ ops, ¬ Resets op) (ho : InOrder ops)
    (key : Nat) (hkey : key < 128) (l : Nat) (hl : l < c.numLayers)
    (hq : NoHold (c.regions l)) (hk : KeysOk (c.regions l))
    (hlast : HasLast (c.regions l) ∨ (c.regions l).usesKeySwitches = false)
    (hcc : (c.regions l).triggerOnCC = false)
    (htempo : containsWithEnd (c.regions l).bpmRange (60 / c.beatsPerSecond) = true) :
    hears c s l key = true ↔ ReleaseWanted c sw ops (c.regions l) key (c.rand s.draws) := by
  have hok := conditions_after Midi.init sw n gl sl ops s hr hl
  obtain ⟨hsw, hflag⟩ := switch_after Midi.init sw n gl sl ops s hr
  have hks := hflag l hl hq hk hlast
  unfold KeyFlag at hks
  rw [hsw] at hks
  have hseq := sequence_after Midi.init sw n gl sl ops s hr hl
  unfold SeqOk at hseq
  rw [hok.sequence hcc] at hseq
  have hpress := pressure_after (s0 := load c Midi.init sw n gl sl) key hkey 0 (init_presses _) ops s hr ho
  have hvel : Layer.noteVelocity s.midi key = latest (struckKey c key) 0 ops := (held_keys_history sw n gl sl ops s hr key hkey).2
  have hon : Layer.isSwitchedOn (s.layers l) = true ↔
      (s.layers l).keySwitched = true ∧ (core (s.layers l)).previousKeySwitched = true ∧ (core (s.layers l)).sequenceSwitched = true ∧
      (core (s.layers l)).pitchSwitched = true ∧ (core (s.layers l)).programSwitched = true ∧
      (core (s.layers l)).bpmSwitched = true ∧ (core (s.layers l)).aftertouchSwitched = true ∧
      ∀ k, k < 512 → (core (s.layers l)).ccSwitched k = true := by
    unfold Layer.isSwitchedOn Layer.ccAll core
    simp only [Bool.and_eq_true, List.all_eq_true, List.mem_range, and_assoc]
    rfl
  have hccs : (∀ k, k < 512 → (core (s.layers l)).ccSwitched k = true) ↔
      ∀ k, k < 512 → ∀ range, (c.regions l).ccConditions k = some range →
        containsWithEnd range (latest (sentCC c k) 0 ops) = true := by
    refine forall_congr' fun k => forall_congr' fun hk => ?_
    rw [hok.cc k hk, init_ccValue]
    unfold condHolds
    cases (c.regions l).ccConditions k <;> simp
  unfold hears ReleaseWanted
  simp only [Bool.and_eq_true, hon, hks, hok.previous, hseq, hok.bend hreset, hok.program, hok.bpm, hok.aftertouch,
    prevFlag_holds _ hk.previous, hccs, hpress, hvel, randOk_iff]
  have e1 : (Midi.backValue Midi.init.pitch).getD 0 = 0 := rfl
  have e2 : (Midi.backValue Midi.init.channelAftertouch).getD 0 = 0 := rfl
  have e3 : Midi.init.currentProgram = 0 := rfl
  rw [e1, e2, e3]
  constructor
  · rintro ⟨⟨⟨⟨⟨⟨a1, a2, a3, a4, a5, _, a6, a7⟩, b1⟩, b2⟩, b3⟩, b4⟩, b5⟩
    exact ⟨b2, b4, b3, b5, b1, a1, a2, a3, a4, a5, a6, a7⟩
  · rintro ⟨b2, b4, b3, b5, b1, a1, a2, a3, a4, a5, a6, a7⟩
    exact ⟨⟨⟨⟨⟨⟨a1, a2, a3, a4, a5, htempo, a6, a7⟩, b1⟩, b2⟩, b3⟩, b4⟩, b5⟩

/-! ### Examples -/

/-- A release region for every second note of keys 60 to 70. -/
def everySecond : Cfg := demo [
  { keyRange := ⟨60, 70⟩, trigger := .release, usesSequenceSwitches := true, sequenceLength := 2, sequencePosition := 2 }]

/-- The first note-off is not heard, the one after the second note is. -/
example : ((run everySecond (demoLoad everySecond 16 16) [.noteOn 0 60 1]).map (hears everySecond · 0 60)) = some false ∧
    ((run everySecond (demoLoad everySecond 16 16) [.noteOn 0 60 1, .noteOff 1 60 0, .noteOn 2 61 1]).map (hears everySecond · 0 61)) =
      some true := by decide +kernel

/-- The hypotheses of `hears_history_partial` are met there. -/
example : (0 < everySecond.numLayers) ∧ NoHold (everySecond.regions 0) ∧ KeysOk (everySecond.regions 0) ∧
    (HasLast (everySecond.regions 0) ∨ (everySecond.regions 0).usesKeySwitches = false) ∧ (everySecond.regions 0).triggerOnCC = false ∧
    containsWithEnd (everySecond.regions 0).bpmRange (60 / everySecond.beatsPerSecond) = true ∧ InOrder [.noteOn 0 60 1] ∧
    turnHolds (everySecond.regions 0) 2 ∧ ¬ turnHolds (everySecond.regions 0) 1 := by
  refine ⟨by decide, ⟨rfl, rfl⟩, ⟨fun h => absurd h (by simp [HasLast, everySecond, demo]), Or.inl rfl, rfl⟩, Or.inr rfl, rfl,
    by decide +kernel, ?_, by simp [turnHolds, everySecond, demo], by simp [turnHolds, everySecond, demo]⟩
  intro pre op post h dd hd
  match pre, h with
  | [], h => cases h; cases hd; decide +kernel
  | _ :: _, h => simp at h

end Verif.Engine
