import Verif.Engine.Heard

/-! C12 for controllers: when a controller message starts a region, for every history of calls (Layer.cpp:160-192, Synth.cpp:1429-1460). -/
namespace Verif.Engine

open Verif.Layer (Region)
open Verif.Range (containsWithEnd)

variable (c : Cfg)

/-! ### Specification -/

/-- All the conditions of region `r` for being started by controller `cc` when it is sent the value `v`, after the calls `ops`: `known` is
the value that `getHdcc` answers before the message, `before` the number of times the region's turn in its sequence has come, `arg` the
key of a polyphonic aftertouch message (-1 for others), `u` the random number. -/
def CCConditions (m : Midi.State) (sw : Option Int) (ops : List Op) (r : Region) (known : ℚ) (before : Nat) (cc : Nat) (v u : ℚ)
    (arg : Int) : Prop :=
  r.triggerOnCC = true ∧
  randHolds r u ∧
  (∃ range, r.ccTriggers cc = some range ∧ containsWithEnd range v = true) ∧
  (cc = 130 → 0 ≤ arg → containsWithEnd r.keyRange arg = true) ∧
  (cc = 130 ∨ v ≠ known) ∧
  switchHolds r (lastSwitch c sw ops) = true ∧
  previousHolds r ((ops.filterMap pressedKey).getLast?) = true ∧
  before % r.sequenceLength + 1 = r.sequencePosition ∧
  containsWithEnd r.bendRange (latest sentBend ((Midi.backValue m.pitch).getD 0) ops) = true ∧
  containsWithEnd r.programRange (latest sentProgram m.currentProgram ops) = true ∧
  containsWithEnd r.aftertouchRange (latest sentAftertouch ((Midi.backValue m.channelAftertouch).getD 0) ops) = true ∧
  ∀ k, k < 512 → ∀ range, r.ccConditions k = some range →
    containsWithEnd range (if k = cc then v else latest (sentCC c k) (Layer.ccValue m k) ops) = true

variable {c}

/-! ### Lemmas -/

theorem registerCC_iff (r : Region) (m : Midi.State) (s : Layer.State) (cc : Nat) (v u : ℚ) (arg : Int) :
    (Layer.registerCC r m s cc v u arg).2 = true ↔
      r.triggerOnCC = true ∧ Layer.randOk r u = true ∧
      (∃ range, r.ccTriggers cc = some range ∧ containsWithEnd range v = true) ∧
      (cc = 130 → 0 ≤ arg → containsWithEnd r.keyRange arg = true) ∧ (cc = 130 ∨ v ≠ Layer.ccValue m cc) ∧
      Layer.isSwitchedOn (Layer.sequenceStep r (Layer.updateCCState r m s cc v)) = true := by
  unfold Layer.registerCC Layer.ccPolyAftertouch
  generalize Layer.updateCCState r m s cc v = s1
  simp only
  cases h1 : r.triggerOnCC with
  | false => simp
  | true =>
    cases h2 : Layer.randOk r u with
    | false => simp
    | true =>
      cases h3 : r.ccTriggers cc with
      | none => simp
      | some range =>
        cases h4 : containsWithEnd range v with
        | false => simp [h4]
        | true =>
          by_cases h5 : cc = 130 ∧ arg ≥ 0 ∧ containsWithEnd r.keyRange arg = false
          · obtain ⟨a, b, d⟩ := h5
            simp [h4, a, b, d]
          · simp only [Bool.not_true, Bool.false_eq_true, if_false, h5]
            have h6 : cc = 130 → 0 ≤ arg → containsWithEnd r.keyRange arg = true := by
              intro a b
              cases hk : containsWithEnd r.keyRange arg with
              | true => rfl
              | false => exact absurd ⟨a, b, hk⟩ h5
            simp only [h4, Bool.not_true, Bool.false_eq_true, if_false, Bool.and_eq_true, Bool.or_eq_true, decide_eq_true_eq]
            constructor
            · rintro ⟨a, b⟩; exact ⟨trivial, trivial, ⟨range, rfl, h4⟩, h6, b, a⟩
            · rintro ⟨_, _, _, _, b, a⟩; exact ⟨a, b⟩

theorem ccLayers_key {d : Int} {cc : Nat} {v u : ℚ} {arg : Int} {sh sh' : E × Option Nat} (L : List Nat) (k : Nat)
    (hq : NoHold (c.regions k)) (h : L.foldlM (ccLayer c d cc v u arg) sh = some sh') :
    (sh'.1.layers k).keySwitched = (sh.1.layers k).keySwitched :=
  foldlM_atoms (fun a b : E × Option Nat => (b.1.layers k).keySwitched = (a.1.layers k).keySwitched) (fun _ => rfl)
    (fun _ _ _ h h' => h'.trans h) _ _ _ _ (fun _ _ _ _ h => ccLayer_key k hq h) h

theorem prevFlag_holds (r : Region) (h : r.usesPreviousKeySwitches = r.previousKeyswitch.isSome) (k : Option Int) :
    prevFlag r k = previousHolds r k := by
  unfold prevFlag previousHolds
  rw [h]
  cases r.previousKeyswitch with
  | none => rfl
  | some p =>
    cases k with
    | none => rfl
    | some k => simp [eq_comm]

/-! ### The decision -/

/-- C12. After every history, when a controller message is dispatched and the turn of region `l` comes, the region is started by it
exactly if all its conditions hold for the last values received, this message included. Missing from the full statement: histories that
reset all controllers, tempo conditions, `sw_up`/`sw_down`, conditions on controllers that notes set (as in `note_triggers_iff_partial`);
and the number of earlier turns in the sequence, which notes and controllers share, is that of the state. -/
theorem cc_triggers_iff_partial (m : Midi.State) (sw : Option Int) (n : Nat) (gl sl : Nat → Nat) (ops : List Op) (s : E)
    (hr : run c (load c m sw n gl sl) ops = some s) (hreset : ∀ op ∈ ops, ¬ Resets op)
    (d : Int) (cc : Nat) (v : ℚ) (arg : Int) (pre post : List Nat) (l : Nat) (hturn : ccLayers c cc = pre ++ l :: post)
    (hq : NoHold (c.regions l)) (hk : KeysOk (c.regions l))
    (hlast : HasLast (c.regions l) ∨ (c.regions l).usesKeySwitches = false)
    (htempo : containsWithEnd (c.regions l).bpmRange (60 / c.beatsPerSecond) = true)
    (sh sh' : E × Option Nat)
    (hpre : pre.foldlM (ccLayer c d cc v (c.rand s.draws) arg)
      (draw (eachVoice (fun vm i => voiceCC c.toEnv vm i d cc v) s), none) = some sh)
    (hped : ccPedals c d cc v sh l = some sh') :
    (Layer.registerCC (c.regions l) sh'.1.midi (sh'.1.layers l) cc v (c.rand s.draws) arg).2 = true ↔
      CCConditions c m sw ops (c.regions l) (Layer.ccValue s.midi cc) (s.layers l).sequenceCounter cc v (c.rand s.draws) arg := by
  have hmem : l ∈ ccLayers c cc := by rw [hturn]; simp
  have hl : l < c.numLayers := List.mem_range.mp (List.mem_filter.mp hmem).1
  have hnd := ccLayers_nodup (c := c) cc
  rw [hturn] at hnd
  have hnpre : l ∉ pre := fun h => (List.nodup_append.mp hnd).2.2 l h l (by simp) rfl
  obtain ⟨k1, k2⟩ := layers_fold (ccLayer c d cc v (c.rand s.draws) arg) (fun sh k => core (sh.1.layers k))
    (fun sh => sh.1.midi = s.midi)
    (fun k x => ccCore (c.regions k) x cc v (c.rand s.draws) arg)
    pre (draw (eachVoice (fun vm i => voiceCC c.toEnv vm i d cc v) s), none) sh (List.nodup_append.mp hnd).1 rfl (by
      intro a _ x x' hx h
      obtain ⟨⟨p1, p2⟩, p3⟩ := ccLayer_core h
      exact ⟨p1.trans hx, by rw [p3 a, if_pos rfl], fun k hk => by rw [p3 k, if_neg hk]⟩) hpre
  obtain ⟨p1, _, p3, p4⟩ := ccPedals_core hped
  have hcore : core (sh'.1.layers l) = core (s.layers l) := by
    have := k2 l
    rw [if_neg hnpre] at this
    exact (p3 l).trans this
  have hok := conditions_after m sw n gl sl ops s hr hl
  obtain ⟨hsw, hflag⟩ := switch_after m sw n gl sl ops s hr
  have hkey : (sh'.1.layers l).keySwitched = switchHolds (c.regions l) (lastSwitch c sw ops) := by
    rw [p4 l, ccLayers_key _ l hq hpre]
    have := hflag l hl hq hk hlast
    unfold KeyFlag at this
    rw [hsw] at this
    exact this
  rw [registerCC_iff, p1.trans k1, randOk_iff]
  obtain ⟨u1, u2⟩ := updateCCState_core (c.regions l) s.midi (sh'.1.layers l) cc v
  have hon : Layer.isSwitchedOn (Layer.sequenceStep (c.regions l) (Layer.updateCCState (c.regions l) s.midi (sh'.1.layers l) cc v)) = true ↔
      (sh'.1.layers l).keySwitched = true ∧ (core (s.layers l)).previousKeySwitched = true ∧
      (s.layers l).sequenceCounter % (c.regions l).sequenceLength + 1 = (c.regions l).sequencePosition ∧
      (core (s.layers l)).pitchSwitched = true ∧ (core (s.layers l)).programSwitched = true ∧
      (core (s.layers l)).bpmSwitched = true ∧ (core (s.layers l)).aftertouchSwitched = true ∧
      ∀ k, k < 512 → condAfter (c.regions l) (core (s.layers l)).ccSwitched cc v k = true := by
    rw [← u2]
    have e : core (Layer.updateCCState (c.regions l) s.midi (sh'.1.layers l) cc v) = condCore (c.regions l) (core (s.layers l)) cc v := by
      rw [u1, hcore]
    generalize Layer.updateCCState (c.regions l) s.midi (sh'.1.layers l) cc v = ls at e
    have e1 := congrArg Core.previousKeySwitched e
    have e2 := congrArg Core.sequenceCounter e
    have e3 := congrArg Core.pitchSwitched e
    have e4 := congrArg Core.programSwitched e
    have e5 := congrArg Core.bpmSwitched e
    have e6 := congrArg Core.aftertouchSwitched e
    have e7 := congrArg Core.ccSwitched e
    simp only [condCore, core] at e1 e2 e3 e4 e5 e6 e7
    unfold Layer.isSwitchedOn Layer.sequenceStep Layer.ccAll
    simp only [Bool.and_eq_true, decide_eq_true_eq, List.all_eq_true, List.mem_range, and_assoc, core, e1, e2, e3, e4, e5, e6, e7]
    have : ∀ a b : Nat, ((a : Int) = (b : Int) - 1) ↔ a + 1 = b := by intro a b; omega
    rw [this]
    rfl
  rw [hon, hkey, hok.previous, hok.bend hreset, hok.program, hok.bpm, hok.aftertouch, prevFlag_holds _ hk.previous]
  have hccs : (∀ k, k < 512 → condAfter (c.regions l) (core (s.layers l)).ccSwitched cc v k = true) ↔
      ∀ k, k < 512 → ∀ range, (c.regions l).ccConditions k = some range →
        containsWithEnd range (if k = cc then v else latest (sentCC c k) (Layer.ccValue m k) ops) = true := by
    refine forall_congr' fun k => forall_congr' fun hk => ?_
    have hc := hok.cc k hk
    unfold condAfter
    by_cases hkc : k = cc
    · subst hkc
      cases hrange : (c.regions l).ccConditions k with
      | none => simp [hc, condHolds, hrange]
      | some range => simp [Midi.upd]
    · cases hrange : (c.regions l).ccConditions cc with
      | none =>
        simp only [if_neg hkc]
        rw [hc]; unfold condHolds
        cases (c.regions l).ccConditions k <;> simp
      | some range =>
        simp only [Midi.upd, if_neg hkc]
        rw [hc]; unfold condHolds
        cases (c.regions l).ccConditions k <;> simp
  rw [hccs]
  unfold CCConditions
  constructor
  · rintro ⟨b1, b2, b3, b4, b5, a1, a2, a3, a4, a5, _, a6, a7⟩
    exact ⟨b1, b2, b3, b4, b5, a1, a2, a3, a4, a5, a6, a7⟩
  · rintro ⟨b1, b2, b3, b4, b5, a1, a2, a3, a4, a5, a6, a7⟩
    exact ⟨b1, b2, b3, b4, b5, a1, a2, a3, a4, a5, htempo, a6, a7⟩

theorem init_cc (k : Nat) : Midi.init.cc k = [⟨0, 0⟩] := by
  simp only [Midi.init, Midi.resetNoteStates, Midi.setEvents, Midi.resetEventStates, Midi.upd]
  repeat' split
  all_goals rfl

/-- C12. The same for a controller below 128 of a fresh synthesizer, when the events of each block come in order: the value it had before
is the last one sent to it, or zero. -/
theorem cc_triggers_history_partial (sw : Option Int) (n : Nat) (gl sl : Nat → Nat) (ops : List Op) (s : E)
    (hr : run c (load c Midi.init sw n gl sl) ops = some s) (hreset : ∀ op ∈ ops, ¬ Resets op) (ho : InOrder ops)
    (d : Int) (cc : Nat) (hcc : cc < 128) (v : ℚ) (pre post : List Nat) (l : Nat) (hturn : ccLayers c cc = pre ++ l :: post)
    (hq : NoHold (c.regions l)) (hk : KeysOk (c.regions l))
    (hlast : HasLast (c.regions l) ∨ (c.regions l).usesKeySwitches = false)
    (htempo : containsWithEnd (c.regions l).bpmRange (60 / c.beatsPerSecond) = true)
    (sh sh' : E × Option Nat)
    (hpre : pre.foldlM (ccLayer c d cc v (c.rand s.draws) (-1))
      (draw (eachVoice (fun vm i => voiceCC c.toEnv vm i d cc v) s), none) = some sh)
    (hped : ccPedals c d cc v sh l = some sh') :
    (Layer.registerCC (c.regions l) sh'.1.midi (sh'.1.layers l) cc v (c.rand s.draws) (-1)).2 = true ↔
      CCConditions c Midi.init sw ops (c.regions l) (latest (sentCC c cc) 0 ops) (s.layers l).sequenceCounter cc v (c.rand s.draws) (-1) := by
  rw [cc_triggers_iff_partial Midi.init sw n gl sl ops s hr hreset d cc v (-1) pre post l hturn hq hk hlast htempo sh sh' hpre hped]
  have h := (run_holds (fun _ => 0) (load c Midi.init sw n gl sl) init_cc cc hcc ops s hr ho).ccValue
  rw [h]
  rfl

/-! ### Examples -/

/-- A region for controller 20 between a half and one, while controller 21 is at least a half, and one for controller 20 at any value. -/
def knobs : Cfg := demo [
  { triggerOnNote := false, triggerOnCC := true, ccTriggers := fun k => if k = 20 then some ⟨1 / 2, 1⟩ else none,
    ccConditions := fun k => if k = 21 then some ⟨1 / 2, 1⟩ else none },
  { triggerOnNote := false, triggerOnCC := true, ccTriggers := fun k => if k = 20 then some ⟨0, 1⟩ else none }]

/-- Only the second region until controller 21 has come; a value sent twice starts nothing. -/
example : ((run knobs (demoLoad knobs 16 16) [.cc 0 20 1, .cc 0 20 1]).map soundingRegions) = some [some 1] ∧
    ((run knobs (demoLoad knobs 16 16) [.cc 0 20 1, .cc 0 21 1, .automate 0 20 (3 / 4)]).map soundingRegions) =
      some [some 1, some 0, some 1] ∧
    ((run knobs (demoLoad knobs 16 16) [.cc 0 21 1, .cc 0 20 (1 / 4)]).map soundingRegions) = some [some 1] := by decide +kernel

/-- The hypotheses of `cc_triggers_iff_partial` are met there by the first region, whose turn is first. -/
example : ccLayers knobs 20 = [] ++ 0 :: [1] ∧ NoHold (knobs.regions 0) ∧ KeysOk (knobs.regions 0) ∧
    (HasLast (knobs.regions 0) ∨ (knobs.regions 0).usesKeySwitches = false) ∧
    containsWithEnd (knobs.regions 0).bpmRange (60 / knobs.beatsPerSecond) = true :=
  ⟨by decide +kernel, ⟨rfl, rfl⟩, ⟨fun h => absurd h (by simp [HasLast, knobs, demo]), Or.inl rfl, rfl⟩, Or.inr rfl, by decide +kernel⟩

end Verif.Engine
