import Verif.Engine.ReleaseTrigger

/-! C159 and C13: how often the turn of a region in its sequence has come, when notes and controllers share the sequence
(Layer.cpp:57-61, 184-185), from the calls alone. -/
namespace Verif.Engine

open Verif.Layer (Region)
open Verif.Range (containsWithEnd)

variable (c : Cfg)

/-! ### Specification -/

/-- Controller `k` triggers the region at value `v`. -/
def inTrigger (r : Region) (k : Nat) (v : ℚ) : Bool :=
  r.triggerOnCC && (match r.ccTriggers k with | some range => containsWithEnd range v | none => false)

/-- A call counts for the sequence of the region: a note-on in its key range, or a value for a controller within the range in which that
controller triggers it (bend, channel and key pressure are controllers 128 to 130; pressure on a key must be for a key of the region). -/
def takesTurn (r : Region) : Op → Bool
  | .noteOn _ n _ => containsWithEnd r.keyRange n
  | .cc _ k v => !(decide (k = 120) || decide (k = 121) || decide (k = 123)) && inTrigger r k v
  | .automate _ k v => inTrigger r k v
  | .pitchWheel _ v => inTrigger r 128 v
  | .channelAftertouch _ v => inTrigger r 129 v
  | .polyAftertouch _ n v => inTrigger r 130 v && (decide (n < 0) || containsWithEnd r.keyRange n)
  | _ => false

/-- The number of calls that counted for the sequence. -/
def turns (r : Region) (ops : List Op) : Nat := ops.countP (takesTurn r)

variable {c}

/-! ### Lemmas -/

theorem turns_snoc (r : Region) (ops : List Op) (op : Op) : turns r (ops ++ [op]) = turns r ops + if takesTurn r op then 1 else 0 := by
  unfold turns
  rw [List.countP_append, List.countP_singleton]

theorem hdcc_counter {s s' : E} {l : Nat} {d : Int} {k : Nat} {v : ℚ} {asMidi : Bool} {arg : Int} (hl : l < c.numLayers)
    (hu : Layer.randOk (c.regions l) (c.rand s.draws) = true) (hn : isCommand asMidi k = false)
    (hs : performHdcc c s d k v asMidi arg = some s') :
    (core (s'.layers l)).sequenceCounter = (core (s.layers l)).sequenceCounter +
      if inTrigger (c.regions l) k v && !(decide (k = 130) && decide (arg ≥ 0) && !containsWithEnd (c.regions l).keyRange arg) then 1 else 0 := by
  obtain ⟨_, _, h3⟩ := performHdcc_core hn hs
  have hcounts : ccCounts (c.regions l) k v (c.rand s.draws) arg =
      (inTrigger (c.regions l) k v && !(decide (k = 130) && decide (arg ≥ 0) && !containsWithEnd (c.regions l).keyRange arg)) := by
    unfold ccCounts inTrigger
    rw [hu]
    cases (c.regions l).triggerOnCC <;> cases (c.regions l).ccTriggers k <;> simp
  rw [← hcounts, h3]
  split
  · unfold ccCore
    split <;> rfl
  · rename_i hm
    have : ccCounts (c.regions l) k v (c.rand s.draws) arg = false := by
      cases ht : (c.regions l).ccTriggers k with
      | none => simp [ccCounts, ht]
      | some range => exfalso; apply hm; simp [ccLayers, hl, ht]
    rw [this]; rfl

theorem step_counter {s s' : E} {l : Nat} {op : Op} (hl : l < c.numLayers) (hu : ∀ i, Layer.randOk (c.regions l) (c.rand i) = true)
    (hs : step c s op = some s') :
    (core (s'.layers l)).sequenceCounter = (core (s.layers l)).sequenceCounter + if takesTurn (c.regions l) op then 1 else 0 := by
  have quiet : core (s'.layers l) = core (s.layers l) → (core (s'.layers l)).sequenceCounter = (core (s.layers l)).sequenceCounter + 0 :=
    fun e => by rw [e]; rfl
  cases op with
  | noteOn d n v =>
    simp only [Engine.step, hdNoteOn] at hs
    obtain ⟨_, _, h3⟩ := noteOnDispatch_core hs
    have hcore : core (s'.layers l) = noteOnCore (c.regions l) n (core (s.layers l)) := by
      rw [h3, if_pos hl]
      congr 2
      split <;> rfl
    obtain ⟨_, _, _, _, _, _, p7⟩ := noteOnCore_rest (c.regions l) n (core (s.layers l))
    rw [hcore, p7]; rfl
  | noteOff d n v => exact quiet ((hdNoteOff_core hs).2 l)
  | cc d k v =>
    by_cases hk : isCommand true k = true
    · have ht : takesTurn (c.regions l) (.cc d k v) = false := by
        simp only [isCommand, Bool.true_and, Bool.or_eq_true, decide_eq_true_eq] at hk
        have : (decide (k = 120) || decide (k = 121) || decide (k = 123)) = true := by
          simp only [Bool.or_eq_true, decide_eq_true_eq]; omega
        simp only [takesTurn, this, Bool.not_true, Bool.false_and]
      simp only [isCommand, Bool.true_and, Bool.or_eq_true, decide_eq_true_eq] at hk
      rw [ht]
      by_cases h121 : k = 121
      · subst h121
        have hs' : s' = resetAllControllers c s d := by
          simp only [Engine.step, performHdcc, true_and, if_true] at hs
          cases hs; rfl
        have hcore : core (s'.layers l) = resetCore (c.regions l) c.defaultCC (core (s.layers l)) := by
          rw [hs']
          unfold resetAllControllers
          simp only
          rw [eachLayer_core _ _ hl, (resetLayerCCs_core _ _ _).1]
          rfl
        obtain ⟨_, _, _, _, _, _, _, _, _, q10⟩ := resetCore_fold (c.regions l) c.defaultCC (core (s.layers l)) 512
        rw [hcore]
        exact q10
      · have hk' : k = 120 ∨ k = 123 := by omega
        obtain ⟨_, _, p3⟩ := performHdcc_off hk' hs
        exact quiet (by rw [p3])
    · have hk' : isCommand true k = false := by simpa using hk
      rw [hdcc_counter hl (hu _) hk' hs]
      simp only [isCommand, Bool.true_and, Bool.or_eq_false_iff, decide_eq_false_iff_not] at hk'
      obtain ⟨⟨n1, n2⟩, n3⟩ := hk'
      simp [takesTurn, n1, n2, n3]
  | automate d k v =>
    rw [hdcc_counter hl (hu _) (by simp [isCommand]) hs]
    show _ = _ + if inTrigger (c.regions l) k v then 1 else 0
    simp
  | pitchWheel d v =>
    simp only [Engine.step, hdPitchWheel] at hs
    rw [hdcc_counter hl (hu _) (by simp [isCommand]) hs, eachLayer_core _ _ hl, registerPitchWheel_core]
    show _ = _ + if inTrigger (c.regions l) 128 v then 1 else 0
    simp
  | program p =>
    simp only [Engine.step, programChange] at hs
    cases hs
    rw [eachLayer_core _ _ hl, registerProgram_core]
    rfl
  | channelAftertouch d v =>
    simp only [Engine.step, hdChannelAftertouch] at hs
    rw [hdcc_counter hl (hu _) (by simp [isCommand]) hs, eachLayer_core _ _ hl, registerAftertouch_core]
    show _ = _ + if inTrigger (c.regions l) 129 v then 1 else 0
    simp
  | polyAftertouch d n v =>
    simp only [Engine.step, hdPolyAftertouch] at hs
    rw [hdcc_counter hl (hu _) (by simp [isCommand]) hs]
    have : (!(decide (130 = 130) && decide (n ≥ 0) && !containsWithEnd (c.regions l).keyRange n)) =
        (decide (n < 0) || containsWithEnd (c.regions l).keyRange n) := by
      by_cases h0 : n ≥ 0
      · have h1 : ¬ n < 0 := by omega
        simp [h0, h1]
      · have h1 : n < 0 := by omega
        simp [h0, h1]
    rw [this]; rfl
  | render f snd =>
    apply quiet
    simp only [Engine.step, render] at hs
    split at hs
    · cases hs; rfl
    · rw [Option.bind_eq_bind, Option.bind_eq_some_iff] at hs
      obtain ⟨s1, k1, k2⟩ := hs
      cases k2
      show core (s1.layers l) = _
      rw [(eachVoiceM_frame k1).2.2.1]
  | allSoundOff => exact quiet (by rw [(eachVoiceM_frame hs).2.2.1])
  | setNumVoices n =>
    apply quiet
    simp only [Engine.step] at hs
    cases hs
    unfold setNumVoices
    split <;> rfl

theorem load_counter (m : Midi.State) (sw : Option Int) (n : Nat) (gl sl : Nat → Nat) (l : Nat) :
    (core ((load c m sw n gl sl).layers l)).sequenceCounter = 0 := by
  obtain ⟨h1, _⟩ := loadLayer_core (c := c) m sw l
  have h1' : core ((load c m sw n gl sl).layers l) = _ := h1
  obtain ⟨_, _, _, _, _, _, _, _, _, q10⟩ := resetCore_fold (c.regions l) (Layer.ccValue m)
    (core (Layer.initializeActivations (c.regions l) {})) Layer.numCCs
  clear h1
  generalize (List.range Layer.numCCs).foldl (fun k cc => condCore (c.regions l) k cc (Layer.ccValue m cc))
      (core (Layer.initializeActivations (c.regions l) {})) = k0 at q10 h1'
  rw [h1']
  exact q10

/-! ### Theorems -/

/-- C159. After every history, the number of turns of a region whose random range admits every number drawn is the number of calls that
counted, notes and controllers alike. Missing: regions with a narrower random range, for which a controller counts only if the number drawn
for it is in that range. -/
theorem turns_counted_partial (m : Midi.State) (sw : Option Int) (n : Nat) (gl sl : Nat → Nat) (ops : List Op) (s : E)
    (hr : run c (load c m sw n gl sl) ops = some s) (l : Nat) (hl : l < c.numLayers) (hu : ∀ i, randHolds (c.regions l) (c.rand i)) :
    (s.layers l).sequenceCounter = turns (c.regions l) ops :=
  history_induction (P := fun ops s => (core (s.layers l)).sequenceCounter = turns (c.regions l) ops) (load_counter m sw n gl sl l)
    (fun _ _ _ _ _ h hs => by rw [step_counter hl (fun i => (randOk_iff _ _).mpr (hu i)) hs, h, turns_snoc]) ops s hr

/-- C159. A controller below 128 starts a region of a fresh synthesizer exactly if all its conditions hold for the calls so far, its turn in
the sequence included. Missing: what is missing in `cc_triggers_history_partial` and `turns_counted_partial`. -/
theorem cc_triggers_calls_partial (sw : Option Int) (n : Nat) (gl sl : Nat → Nat) (ops : List Op) (s : E)
    (hr : run c (load c Midi.init sw n gl sl) ops = some s) (hreset : ∀ op ∈ ops, ¬ Resets op) (ho : InOrder ops)
    (d : Int) (cc : Nat) (hcc : cc < 128) (v : ℚ) (pre post : List Nat) (l : Nat) (hturn : ccLayers c cc = pre ++ l :: post)
    (hq : NoHold (c.regions l)) (hk : KeysOk (c.regions l))
    (hlast : HasLast (c.regions l) ∨ (c.regions l).usesKeySwitches = false)
    (htempo : containsWithEnd (c.regions l).bpmRange (60 / c.beatsPerSecond) = true)
    (hu : ∀ i, randHolds (c.regions l) (c.rand i))
    (sh sh' : E × Option Nat)
    (hpre : pre.foldlM (ccLayer c d cc v (c.rand s.draws) (-1))
      (draw (eachVoice (fun vm i => voiceCC c.toEnv vm i d cc v) s), none) = some sh)
    (hped : ccPedals c d cc v sh l = some sh') :
    (Layer.registerCC (c.regions l) sh'.1.midi (sh'.1.layers l) cc v (c.rand s.draws) (-1)).2 = true ↔
      CCConditions c Midi.init sw ops (c.regions l) (latest (sentCC c cc) 0 ops) (turns (c.regions l) ops) cc v (c.rand s.draws) (-1) := by
  have hl : l < c.numLayers := List.mem_range.mp (List.mem_filter.mp (by rw [hturn]; simp : l ∈ ccLayers c cc)).1
  rw [cc_triggers_history_partial sw n gl sl ops s hr hreset ho d cc hcc v pre post l hturn hq hk hlast htempo sh sh' hpre hped,
    turns_counted_partial Midi.init sw n gl sl ops s hr l hl hu]

/-! ### Examples -/

/-- A region for every second turn, which keys 60 to 70 and controller 20 from a half on take. -/
def shared : Cfg := demo [
  { keyRange := ⟨60, 70⟩, triggerOnCC := true, ccTriggers := fun k => if k = 20 then some ⟨1 / 2, 1⟩ else none,
    usesSequenceSwitches := true, sequenceLength := 2, sequencePosition := 2 }]

/-- A note, then the controller, which has the second turn; a low value takes no turn. -/
example : turns (shared.regions 0) [.noteOn 0 60 1, .cc 1 20 (1 / 4), .cc 2 20 1] = 2 ∧
    ((run shared (demoLoad shared 16 16) [.noteOn 0 60 1, .cc 1 20 (1 / 4)]).map soundingRegions) = some [] ∧
    ((run shared (demoLoad shared 16 16) [.noteOn 0 60 1, .cc 1 20 (1 / 4), .cc 2 20 1]).map soundingRegions) = some [some 0] := by
  decide +kernel

example : (∀ i, randHolds (shared.regions 0) (shared.rand i)) ∧ ccLayers shared 20 = [] ++ 0 :: [] :=
  ⟨fun i => by simp [randHolds, shared, demo]; norm_num, by decide +kernel⟩

end Verif.Engine
