import Verif.Engine.Conditions
import Verif.Engine.Props

/-! C12 (conditions of regions), C13 (round robin) and C14 (key-switches), for every history of calls. -/
namespace Verif.Engine

open Verif.Layer (Region)
open Verif.Range (containsWithEnd)

/-! ### Specification -/

variable (c : Cfg)

/-- A call presses a key-switch: a key that some region names as its `sw_last` key or has in its `sw_lolast` range. -/
def switchKey : Op → Option Int
  | .noteOn _ n _ => if (List.range c.numLayers).any (fun l => isLastSwitch (c.regions l) n) then some n else none
  | _ => none

/-- The last key-switch pressed, or the default one. -/
def lastSwitch (sw : Option Int) (ops : List Op) : Option Int := ((ops.filterMap (switchKey c)).getLast?).or sw

/-- The region depends on the last key-switch. -/
def HasLast (r : Region) : Prop := r.lastKeyswitch.isSome ∨ r.lastKeyswitchRange.isSome

/-- What the parser guarantees of the key-switch settings (Region.cpp:255-290), and that `sw_last` is not combined with
`sw_lolast`/`sw_hilast` on the same region. -/
structure KeysOk (r : Region) : Prop where
  uses : HasLast r → r.usesKeySwitches = true
  one : r.lastKeyswitch = none ∨ r.lastKeyswitchRange = none
  previous : r.usesPreviousKeySwitches = r.previousKeyswitch.isSome

/-- The region has no `sw_up` or `sw_down` condition. -/
def NoHold (r : Region) : Prop := r.upKeyswitch = none ∧ r.downKeyswitch = none

/-- The key-switch condition of the region for the last key-switch pressed. -/
def switchHolds (r : Region) (sw : Option Int) : Bool :=
  if r.usesKeySwitches then (match sw with | some k => isLastSwitch r k | none => false) else true

/-- The `sw_previous` condition: the note-on before this one. -/
def previousHolds (r : Region) (last : Option Int) : Bool :=
  match r.previousKeyswitch with
  | none => true
  | some p => decide (last = some p)

/-- The random condition: the number drawn lies from `lorand` on and below `hirand`; the number 1 counts as lying below a `hirand` of 1. -/
def randHolds (r : Region) (u : ℚ) : Prop :=
  r.randRange.start ≤ u ∧ u < r.randRange.stop ∨ 1 ≤ u ∧ r.randRange.start ≤ r.randRange.stop ∧ 1 ≤ r.randRange.stop

instance (r : Region) (u : ℚ) : Decidable (randHolds r u) := by unfold randHolds; infer_instance

/-- All the conditions of region `r` on a note-on of `note` with velocity `v` and random number `u`, after the calls
`ops`; `heard` is the MIDI state once the note has been taken into account. -/
def Conditions (m : Midi.State) (sw : Option Int) (ops : List Op) (r : Region) (heard : Midi.State) (d note : Int)
    (v u : ℚ) : Prop :=
  r.triggerOnNote = true ∧
  containsWithEnd r.keyRange note = true ∧
  containsWithEnd r.velocityRange (if r.velocityPrevious then heard.velocityOverride else v) = true ∧
  randHolds r u ∧
  (r.trigger = .attack ∨ r.trigger = .first ∧ heard.activeNotes = 1 ∨ r.trigger = .legato ∧ heard.activeNotes > 1) ∧
  containsWithEnd r.polyAftertouchRange (Layer.polyAftertouch heard note) = true ∧
  switchHolds r (lastSwitch c sw (ops ++ [.noteOn d note v])) = true ∧
  previousHolds r ((ops.filterMap pressedKey).getLast?) = true ∧
  matching r ops % r.sequenceLength + 1 = r.sequencePosition ∧
  containsWithEnd r.bendRange (latest sentBend ((Midi.backValue m.pitch).getD 0) ops) = true ∧
  containsWithEnd r.programRange (latest sentProgram m.currentProgram ops) = true ∧
  containsWithEnd r.aftertouchRange (latest sentAftertouch ((Midi.backValue m.channelAftertouch).getD 0) ops) = true ∧
  ∀ k, k < 512 → ∀ range, r.ccConditions k = some range →
    containsWithEnd range (latest (sentCC c k) (Layer.ccValue m k) ops) = true

/-- The MIDI state once the note has been taken into account: key-switches are not notes. -/
def heardNote (s : E) (d note : Int) (v : ℚ) : E :=
  if (lastLayers c note).isEmpty then
    { s with midi := Midi.noteOn s.midi d note v (c.midiRand s.draws).1 (c.midiRand s.draws).2 }
  else s

/-! ### Key-switches -/

variable {c}

theorem OffAtom.keySwitched {s s' : E} (h : OffAtom c s s') (l : Nat) (hq : NoHold (c.regions l)) :
    (s'.layers l).keySwitched = (s.layers l).keySwitched := by
  have key : ∀ (s : E) (k : Nat) (ls : Layer.State), (k = l → ls.keySwitched = (s.layers l).keySwitched) →
      ((setLayer s k ls).layers l).keySwitched = (s.layers l).keySwitched := by
    intro s k ls h
    simp only [setLayer, Midi.upd]
    split
    · rename_i hk; exact h hk.symm
    · rfl
  cases h with
  | choke i d vm h => rfl
  | start l d note v head head' vm h => rfl
  | register k note v u h => exact key s k _ (fun e => by subst e; exact (registerNoteOff_core ..).2)
  | up k note h =>
    apply key; intro e; subst e
    simp [upLayers, hq.1] at h
  | down k note h =>
    apply key; intro e; subst e
    simp [downLayers, hq.2] at h
  | draw => rfl

theorem Offs.keySwitched {s s' : E} (h : Offs c s s') (l : Nat) (hq : NoHold (c.regions l)) :
    (s'.layers l).keySwitched = (s.layers l).keySwitched := by
  induction h with
  | refl => rfl
  | tail _ h ih => exact (h.keySwitched l hq).trans ih

theorem setLayer_key (s : E) (k l : Nat) (ls : Layer.State) (h : ls.keySwitched = (s.layers k).keySwitched) :
    ((setLayer s k ls).layers l).keySwitched = (s.layers l).keySwitched := by
  simp only [setLayer, Midi.upd]
  split
  · rename_i hk; subst hk; exact h
  · rfl

theorem chokeAndStart_key {s : E} {l : Nat} {d n : Int} {b : Bool} {t : Trig} {head : Option Nat} {sh : E × Option Nat}
    {f : Nat} (k : Nat) (hq : NoHold (c.regions k))
    (h : (checkOffGroups c (noteOffDispatch c f) (c.regions l) d n b s).bind (fun s => start c s l d t head) = some sh) :
    (sh.1.layers k).keySwitched = (s.layers k).keySwitched := by
  rw [Option.bind_eq_some_iff] at h
  obtain ⟨s1, h1, h2⟩ := h
  obtain ⟨s2, head'⟩ := sh
  obtain ⟨vm, _, rfl⟩ := start_eq h2
  exact (checkOffGroups_atoms (noteOffDispatch_atoms f) h1).keySwitched k hq

theorem noteOnLayer_key {d n : Int} {v u : ℚ} {sh sh' : E × Option Nat} {l : Nat} (k : Nat) (hq : NoHold (c.regions k))
    (h : noteOnLayer c d n v u sh l = some sh') : (sh'.1.layers k).keySwitched = (sh.1.layers k).keySwitched := by
  obtain ⟨s, head⟩ := sh
  unfold noteOnLayer at h
  simp only at h
  have hreg := (registerNoteOn_core (c.regions l) s.midi (s.layers l) n v u).2
  split at h
  · exact (chokeAndStart_key k hq h).trans (setLayer_key _ _ _ _ hreg)
  · cases h; exact setLayer_key _ _ _ _ hreg

theorem noteOnLayers_key {d n : Int} {v u : ℚ} {sh sh' : E × Option Nat} (L : List Nat) (k : Nat) (hq : NoHold (c.regions k))
    (h : L.foldlM (noteOnLayer c d n v u) sh = some sh') : (sh'.1.layers k).keySwitched = (sh.1.layers k).keySwitched :=
  foldlM_atoms (fun a b : E × Option Nat => (b.1.layers k).keySwitched = (a.1.layers k).keySwitched) (fun _ => rfl)
    (fun _ _ _ h h' => h'.trans h) _ _ _ _ (fun _ _ _ _ h => noteOnLayer_key k hq h) h

theorem ccLayer_key {d : Int} {cc : Nat} {v u : ℚ} {arg : Int} {sh sh' : E × Option Nat} {l : Nat} (k : Nat)
    (hq : NoHold (c.regions k)) (h : ccLayer c d cc v u arg sh l = some sh') :
    (sh'.1.layers k).keySwitched = (sh.1.layers k).keySwitched := by
  unfold ccLayer at h
  rw [Option.bind_eq_bind, Option.bind_eq_some_iff] at h
  obtain ⟨⟨s, head⟩, h1, h2⟩ := h
  obtain ⟨_, _, _, p4⟩ := ccPedals_core h1
  simp only at h2 p4
  have hreg := (registerCC_core (c.regions l) s.midi (s.layers l) cc v u arg).2
  split at h2
  · exact ((chokeAndStart_key k hq h2).trans (setLayer_key _ _ _ _ hreg)).trans (p4 k)
  · cases h2; exact (setLayer_key _ _ _ _ hreg).trans (p4 k)

theorem performHdcc_key {s s' : E} {d : Int} {cc : Nat} {v : ℚ} {asMidi : Bool} {arg : Int} (k : Nat)
    (hq : NoHold (c.regions k)) (h : performHdcc c s d cc v asMidi arg = some s') :
    (s'.layers k).keySwitched = (s.layers k).keySwitched := by
  unfold performHdcc at h
  split at h
  · cases h
    unfold resetAllControllers eachLayer
    simp only
    split
    · rw [(resetLayerCCs_core _ _ _).2]; rfl
    · rfl
  split at h
  · rw [Option.bind_eq_bind, Option.bind_eq_some_iff] at h
    obtain ⟨s1, h1, h2⟩ := h
    cases h2
    show (s1.layers k).keySwitched = _
    rw [(eachVoiceM_frame h1).2.2.1]
  · simp only at h
    rw [Option.bind_eq_bind, Option.bind_eq_some_iff] at h
    obtain ⟨s1, h1, h2⟩ := h
    cases h2
    show (s1.layers k).keySwitched = _
    unfold ccDispatch at h1
    simp only at h1
    rw [Option.bind_eq_bind, Option.bind_eq_some_iff] at h1
    obtain ⟨sh, h3, h4⟩ := h1
    cases h4
    exact foldlM_atoms (fun a b : E × Option Nat => (b.1.layers k).keySwitched = (a.1.layers k).keySwitched) (fun _ => rfl)
      (fun _ _ _ h h' => h'.trans h) _ _ _ _ (fun _ _ _ _ h => ccLayer_key k hq h) h3

theorem mem_lastLayers (l : Nat) (n : Int) : l ∈ lastLayers c n ↔ l < c.numLayers ∧ isLastSwitch (c.regions l) n = true := by
  simp [lastLayers]

/-- The key-switch flag of a layer and the current switch agree. -/
def KeyFlag (c : Cfg) (s : E) (l : Nat) : Prop :=
  (s.layers l).keySwitched = switchHolds (c.regions l) s.currentSwitch

theorem isLastSwitch_uses {r : Region} (hk : KeysOk r) {n : Int} (h : isLastSwitch r n = true) : r.usesKeySwitches = true := by
  apply hk.uses
  unfold isLastSwitch at h
  rw [Bool.or_eq_true] at h
  rcases h with h | h
  · left; simp only [decide_eq_true_eq] at h; simp [h]
  · right
    cases hr : r.lastKeyswitchRange with
    | none => rw [hr] at h; cases h
    | some x => rfl

theorem noteOnSwitches_key (s : E) (n : Int) (l : Nat) (hl : l < c.numLayers) (hq : NoHold (c.regions l))
    (hk : KeysOk (c.regions l)) (h : KeyFlag c s l) : KeyFlag c (noteOnSwitches c s n) l := by
  have hup : l ∉ upLayers c n := by simp [upLayers, hq.1]
  have hdown : l ∉ downLayers c n := by simp [downLayers, hq.2]
  unfold KeyFlag at h ⊢
  rw [(noteOnSwitches_frame s n).2.1]
  unfold noteOnSwitches
  simp only
  rw [(setKeySwitched_frame _ _ _).2.2.2.2 l, if_neg hdown, (setKeySwitched_frame _ _ _).2.2.2.2 l, if_neg hup,
    (setKeySwitched_frame _ _ _).2.2.2.2 l]
  unfold switchAfter
  by_cases hm : l ∈ lastLayers c n
  · rw [if_pos hm]
    have hne : (lastLayers c n).isEmpty = false := by
      cases hL : lastLayers c n with
      | nil => rw [hL] at hm; cases hm
      | cons a tl => rfl
    have hi := ((mem_lastLayers l n).mp hm).2
    simp [hne, switchHolds, hi]
  · rw [if_neg hm]
    have hi : isLastSwitch (c.regions l) n = false := by
      have := mt (mem_lastLayers (c := c) l n).mpr hm
      simp only [not_and, Bool.not_eq_true] at this
      exact this hl
    by_cases he : (lastLayers c n).isEmpty = true
    · simp only [he, if_true]; exact h
    · simp only [he, Bool.false_eq_true, if_false]
      have goal : switchHolds (c.regions l) (some n) = !(c.regions l).usesKeySwitches := by
        simp only [switchHolds, hi]; cases (c.regions l).usesKeySwitches <;> rfl
      rw [goal]
      cases hsw : s.currentSwitch with
      | none =>
        simp only
        rw [h, hsw]
        unfold switchHolds; cases (c.regions l).usesKeySwitches <;> rfl
      | some k =>
        simp only
        by_cases hkn : k = n
        · subst hkn
          simp only [ne_eq, not_true_eq_false, if_false]
          rw [h, hsw, goal]
        · simp only [ne_eq, hkn, not_false_eq_true, if_true]
          rw [(setKeySwitched_frame _ _ _).2.2.2.2 l]
          by_cases hmk : l ∈ lastLayers c k
          · rw [if_pos hmk, isLastSwitch_uses hk ((mem_lastLayers l k).mp hmk).2]; rfl
          · rw [if_neg hmk, h, hsw]
            have hik : isLastSwitch (c.regions l) k = false := by
              have := mt (mem_lastLayers (c := c) l k).mpr hmk
              simp only [not_and, Bool.not_eq_true] at this
              exact this hl
            simp only [switchHolds, hik]; cases (c.regions l).usesKeySwitches <;> rfl

theorem lastSwitch_snoc (sw : Option Int) (ops : List Op) (op : Op) :
    lastSwitch c sw (ops ++ [op]) = (switchKey c op).or (lastSwitch c sw ops) := by
  unfold lastSwitch
  rw [List.filterMap_append]
  cases h : switchKey c op with
  | none => simp [h]
  | some n => simp [h]

theorem lastLayers_empty (n : Int) :
    (lastLayers c n).isEmpty = !(List.range c.numLayers).any (fun l => isLastSwitch (c.regions l) n) := by
  unfold lastLayers
  induction (List.range c.numLayers) with
  | nil => rfl
  | cons a tl ih =>
    rw [List.filter_cons, List.any_cons]
    cases isLastSwitch (c.regions a) n with
    | true => simp
    | false => simpa using ih

theorem switchAfter_eq (sw : Option Int) (d n : Int) (v : ℚ) :
    switchAfter c sw n = (switchKey c (.noteOn d n v)).or sw := by
  unfold switchAfter switchKey
  rw [lastLayers_empty]
  by_cases h : (List.range c.numLayers).any (fun l => isLastSwitch (c.regions l) n) = true
  · simp only [h, if_true, Bool.not_true, Bool.false_eq_true, if_false]; rfl
  · simp only [h, Bool.not_eq_true] at h ⊢
    simp [h]

/-- Every call keeps the current switch and the flag. -/
theorem key_step {sw : Option Int} {ops : List Op} {s s' : E} {op : Op}
    (hsw : s.currentSwitch = lastSwitch c sw ops) (hs : step c s op = some s') :
    s'.currentSwitch = lastSwitch c sw (ops ++ [op]) ∧
    ∀ l, l < c.numLayers → NoHold (c.regions l) → KeysOk (c.regions l) → KeyFlag c s l → KeyFlag c s' l := by
  have keep : ∀ s' : E, s'.currentSwitch = s.currentSwitch → switchKey c op = none →
      (∀ l, NoHold (c.regions l) → (s'.layers l).keySwitched = (s.layers l).keySwitched) →
      s'.currentSwitch = lastSwitch c sw (ops ++ [op]) ∧
      ∀ l, l < c.numLayers → NoHold (c.regions l) → KeysOk (c.regions l) → KeyFlag c s l → KeyFlag c s' l := by
    intro s' h1 h2 h3
    refine ⟨by rw [h1, hsw, lastSwitch_snoc, h2]; rfl, fun l _ hq _ hf => ?_⟩
    unfold KeyFlag at hf ⊢
    rw [h3 l hq, h1, hf]
  have hcc : ∀ (d : Int) (k : Nat) (v : ℚ) (b : Bool) (arg : Int) (s1 : E), performHdcc c s1 d k v b arg = some s' →
      s1.currentSwitch = s.currentSwitch → s'.currentSwitch = s.currentSwitch := by
    intro d k v b arg s1 h2 h1
    by_cases hn : isCommand b k = false
    · rw [(performHdcc_core hn h2).2.1, h1]
    · have hb : b = true := by cases b with | true => rfl | false => simp [isCommand] at hn
      subst hb
      simp only [isCommand, Bool.true_and, Bool.not_eq_false, Bool.or_eq_true, decide_eq_true_eq] at hn
      by_cases h121 : k = 121
      · subst h121
        simp only [performHdcc, true_and, if_true] at h2
        cases h2; exact h1
      · rw [(performHdcc_off (by omega) h2).2.1, h1]
  cases op with
  | noteOn d n v =>
    simp only [Engine.step] at hs
    unfold hdNoteOn at hs
    simp only at hs
    have hd := noteOnDispatch_core hs
    have hcur : s'.currentSwitch = switchAfter c s.currentSwitch n := by
      rw [hd.2.1]; congr 1; split <;> rfl
    refine ⟨by rw [hcur, hsw, lastSwitch_snoc, switchAfter_eq (d := d) (v := v)], fun l hl hq hk hf => ?_⟩
    unfold noteOnDispatch at hs
    simp only at hs
    rw [Option.bind_eq_bind, Option.bind_eq_some_iff] at hs
    obtain ⟨sh, h1, h2⟩ := hs
    cases h2
    have e1 := noteOnLayers_key _ l hq h1
    have e2 : ∀ s1 : E, ((updatePrevious c s1 n).layers l).keySwitched = (s1.layers l).keySwitched := by
      unfold updatePrevious
      generalize previousLayers c = L
      induction L with
      | nil => intro s1; rfl
      | cons a tl ih => intro s1; rw [List.foldl_cons]; exact (ih _).trans (setLayer_key _ _ _ _ rfl)
    unfold KeyFlag
    rw [e2, e1, hcur]
    have hf' : KeyFlag c (if (lastLayers c n).isEmpty then
        { s with midi := Midi.noteOn s.midi d n v (c.midiRand s.draws).1 (c.midiRand s.draws).2 } else s) l := by
      unfold KeyFlag at hf ⊢; split <;> exact hf
    have := noteOnSwitches_key (draw (if (lastLayers c n).isEmpty then
        { s with midi := Midi.noteOn s.midi d n v (c.midiRand s.draws).1 (c.midiRand s.draws).2 } else s)) n l hl hq hk hf'
    unfold KeyFlag at this
    rw [(noteOnSwitches_frame _ n).2.1] at this
    refine this.trans ?_
    congr 2
    show (if _ then _ else _ : E).currentSwitch = _
    split <;> rfl
  | noteOff d n v =>
    simp only [Engine.step] at hs
    refine keep s' (hdNoteOff_core hs).1 rfl (fun l hq => ?_)
    unfold hdNoteOff at hs
    simp only at hs
    rw [(noteOffDispatch_atoms _ _ _ _ _ _ hs).keySwitched l hq]
    simp only [eachVoice]; split <;> rfl
  | cc d k v => exact keep s' (hcc _ _ _ _ _ s hs rfl) rfl (fun l hq => performHdcc_key l hq hs)
  | automate d k v => exact keep s' (hcc _ _ _ _ _ s hs rfl) rfl (fun l hq => performHdcc_key l hq hs)
  | pitchWheel d v =>
    simp only [Engine.step, hdPitchWheel] at hs
    refine keep s' (hcc _ _ _ _ _ _ hs rfl) rfl (fun l hq => (performHdcc_key l hq hs).trans ?_)
    simp only [eachLayer]; split <;> rfl
  | program p =>
    simp only [Engine.step, programChange] at hs
    cases hs
    refine keep _ rfl rfl (fun l hq => ?_)
    simp only [eachLayer]; split <;> rfl
  | channelAftertouch d v =>
    simp only [Engine.step, hdChannelAftertouch] at hs
    refine keep s' (hcc _ _ _ _ _ _ hs rfl) rfl (fun l hq => (performHdcc_key l hq hs).trans ?_)
    simp only [eachLayer]; split <;> rfl
  | polyAftertouch d n v =>
    simp only [Engine.step, hdPolyAftertouch] at hs
    have hk := fun l hq => performHdcc_key l hq hs
    have hc := hcc _ _ _ _ _ _ hs rfl
    exact keep s' hc rfl hk
  | render f snd =>
    simp only [Engine.step, render] at hs
    split at hs
    · cases hs; exact keep _ rfl rfl (fun _ _ => rfl)
    · rw [Option.bind_eq_bind, Option.bind_eq_some_iff] at hs
      obtain ⟨s1, k1, k2⟩ := hs
      cases k2
      have := eachVoiceM_frame k1
      exact keep _ this.2.1 rfl (fun l _ => by show (s1.layers l).keySwitched = _; rw [this.2.2.1])
  | allSoundOff =>
    have := eachVoiceM_frame hs
    exact keep _ this.2.1 rfl (fun l _ => by rw [this.2.2.1])
  | setNumVoices n =>
    simp only [Engine.step] at hs
    cases hs
    unfold setNumVoices
    split <;> exact keep _ rfl rfl (fun _ _ => rfl)

/-! ### After loading -/

theorem loadFold_core (r : Region) (m : Midi.State) (f : Nat → ℚ) (L : List Nat) : ∀ ls : Layer.State,
    core (L.foldl (fun ls cc => Layer.updateCCState r m ls cc (f cc)) ls) =
      L.foldl (fun k cc => condCore r k cc (f cc)) (core ls) ∧
    (L.foldl (fun ls cc => Layer.updateCCState r m ls cc (f cc)) ls).keySwitched = ls.keySwitched := by
  induction L with
  | nil => intro ls; exact ⟨rfl, rfl⟩
  | cons a tl ih =>
    intro ls
    obtain ⟨h1, h2⟩ := updateCCState_core r m ls a (f a)
    obtain ⟨h3, h4⟩ := ih (Layer.updateCCState r m ls a (f a))
    rw [List.foldl_cons, List.foldl_cons, h3, h1]
    exact ⟨rfl, h4.trans h2⟩

/-- The key-switch flag set at load. -/
def loadSwitch (r : Region) (sw : Option Int) : Bool :=
  match r.lastKeyswitchRange, sw with
  | some range, some k' => containsWithEnd range k'
  | _, _ => match r.lastKeyswitch, sw with
    | some k, some k' => decide (k' = k)
    | _, _ => !r.usesKeySwitches

theorem loadLayer_core (m : Midi.State) (sw : Option Int) (l : Nat) :
    let r := c.regions l
    let k := (List.range Layer.numCCs).foldl (fun k cc => condCore r k cc (Layer.ccValue m cc))
      (core (Layer.initializeActivations r {}))
    core (loadLayer c m sw l) = { k with
      pitchSwitched := containsWithEnd r.bendRange ((Midi.backValue m.pitch).getD 0),
      aftertouchSwitched := containsWithEnd r.aftertouchRange ((Midi.backValue m.channelAftertouch).getD 0),
      bpmSwitched := containsWithEnd r.bpmRange (60 / c.beatsPerSecond),
      programSwitched := containsWithEnd r.programRange m.currentProgram } ∧
    (loadLayer c m sw l).keySwitched = loadSwitch r sw := by
  unfold loadLayer loadSwitch
  simp only
  generalize List.range Layer.numCCs = L
  have key : ∀ ls : Layer.State, core ls = core (Layer.initializeActivations (c.regions l) {}) →
      core (L.foldl (fun ls cc => Layer.updateCCState (c.regions l) m ls cc (Layer.ccValue m cc)) ls) =
      L.foldl (fun k cc => condCore (c.regions l) k cc (Layer.ccValue m cc))
        (core (Layer.initializeActivations (c.regions l) {})) := by
    intro ls h
    rw [(loadFold_core _ _ _ _ _).1, h]
  have fin : ∀ (ls : Layer.State), 
      core (Layer.registerProgramChange (c.regions l) (Layer.registerTempo (c.regions l) (Layer.registerAftertouch (c.regions l)
        (Layer.registerPitchWheel (c.regions l) ls ((Midi.backValue m.pitch).getD 0)) ((Midi.backValue m.channelAftertouch).getD 0))
        c.beatsPerSecond) m.currentProgram) = { core ls with
          pitchSwitched := containsWithEnd (c.regions l).bendRange ((Midi.backValue m.pitch).getD 0),
          aftertouchSwitched := containsWithEnd (c.regions l).aftertouchRange ((Midi.backValue m.channelAftertouch).getD 0),
          bpmSwitched := containsWithEnd (c.regions l).bpmRange (60 / c.beatsPerSecond),
          programSwitched := containsWithEnd (c.regions l).programRange m.currentProgram } ∧
      (Layer.registerProgramChange (c.regions l) (Layer.registerTempo (c.regions l) (Layer.registerAftertouch (c.regions l)
        (Layer.registerPitchWheel (c.regions l) ls ((Midi.backValue m.pitch).getD 0)) ((Midi.backValue m.channelAftertouch).getD 0))
        c.beatsPerSecond) m.currentProgram).keySwitched = ls.keySwitched := fun ls => ⟨rfl, rfl⟩
  refine ⟨(fin _).1.trans ?_, (fin _).2.trans ?_⟩
  · rw [key]
    cases (c.regions l).lastKeyswitch <;> cases (c.regions l).lastKeyswitchRange <;> cases sw <;> rfl
  · rw [(loadFold_core _ _ _ _ _).2]
    cases (c.regions l).lastKeyswitch <;> cases (c.regions l).lastKeyswitchRange <;> cases sw <;> rfl

theorem load_cond (m : Midi.State) (sw : Option Int) (n : Nat) (gl sl : Nat → Nat) (l : Nat) :
    CondOk (c := c) m [] (load c m sw n gl sl) l := by
  obtain ⟨h1, _⟩ := loadLayer_core (c := c) m sw l
  have h1' : core ((load c m sw n gl sl).layers l) = _ := h1
  clear h1
  obtain ⟨q1, _, _, q4, _, _, _, _, _, q10⟩ := resetCore_fold (c.regions l) (Layer.ccValue m)
    (core (Layer.initializeActivations (c.regions l) {})) Layer.numCCs
  generalize (List.range Layer.numCCs).foldl (fun k cc => condCore (c.regions l) k cc (Layer.ccValue m cc))
      (core (Layer.initializeActivations (c.regions l) {})) = k0 at q1 q4 q10 h1'
  constructor
  · intro k hk
    rw [h1']
    refine (q1 k).trans ?_
    rw [if_pos (show k < Layer.numCCs from hk)]
    unfold condElse condHolds latest
    cases (c.regions l).ccConditions k <;> rfl
  · rw [h1']; rfl
  · rw [h1']; rfl
  · intro _; rw [h1']; rfl
  · rw [h1']
  · rw [h1']
    refine q4.trans ?_
    unfold prevFlag
    cases (c.regions l).previousKeyswitch <;> rfl
  · intro _; rw [h1']; exact q10

theorem load_key (m : Midi.State) (sw : Option Int) (n : Nat) (gl sl : Nat → Nat) (l : Nat) (hk : KeysOk (c.regions l)) :
    (load c m sw n gl sl).currentSwitch = lastSwitch c sw [] ∧
    ((HasLast (c.regions l) ∨ (c.regions l).usesKeySwitches = false) → KeyFlag c (load c m sw n gl sl) l) := by
  refine ⟨rfl, fun hlast => ?_⟩
  have h2 := (loadLayer_core (c := c) m sw l).2
  unfold KeyFlag
  refine h2.trans ?_
  show _ = switchHolds (c.regions l) sw
  have hu := hk.uses
  unfold HasLast at hu
  unfold loadSwitch switchHolds isLastSwitch
  unfold HasLast at hlast
  rcases hk.one with h | h
  · rw [h] at hlast hu ⊢
    cases hr : (c.regions l).lastKeyswitchRange with
    | none => rw [hr] at hlast; simp at hlast; rw [hlast]; cases sw <;> rfl
    | some range =>
      rw [hr] at hu
      rw [hu (Or.inr rfl)]
      cases sw <;> simp
  · rw [h] at hlast hu ⊢
    cases hr : (c.regions l).lastKeyswitch with
    | none => rw [hr] at hlast; simp at hlast; rw [hlast]; cases sw <;> rfl
    | some k =>
      rw [hr] at hu
      rw [hu (Or.inl rfl)]
      cases sw with
      | none => rfl
      | some k' => simp [eq_comm]

/-- After every history, the conditions of every layer are those of the last values received. -/
theorem conditions_after (m : Midi.State) (sw : Option Int) (n : Nat) (gl sl : Nat → Nat) (ops : List Op) (s : E)
    (hr : run c (load c m sw n gl sl) ops = some s) {l : Nat} (hl : l < c.numLayers) : CondOk (c := c) m ops s l :=
  history_induction (P := fun ops s => CondOk (c := c) m ops s l) (load_cond m sw n gl sl l)
    (fun _ _ _ _ _ h hs => h.step hl hs) ops s hr

theorem switch_after (m : Midi.State) (sw : Option Int) (n : Nat) (gl sl : Nat → Nat) (ops : List Op) (s : E)
    (hr : run c (load c m sw n gl sl) ops = some s) :
    s.currentSwitch = lastSwitch c sw ops ∧ ∀ l, l < c.numLayers → NoHold (c.regions l) → KeysOk (c.regions l) →
      (HasLast (c.regions l) ∨ (c.regions l).usesKeySwitches = false) → KeyFlag c s l :=
  history_induction (P := fun ops s => s.currentSwitch = lastSwitch c sw ops ∧
      ∀ l, l < c.numLayers → NoHold (c.regions l) → KeysOk (c.regions l) →
      (HasLast (c.regions l) ∨ (c.regions l).usesKeySwitches = false) → KeyFlag c s l)
    ⟨rfl, fun l _ _ hk hlast => (load_key m sw n gl sl l hk).2 hlast⟩
    (fun _ _ _ _ _ h hs => by
      obtain ⟨h1, h2⟩ := key_step h.1 hs
      exact ⟨h1, fun l hl hq hk hlast => h2 l hl hq hk (h.2 l hl hq hk hlast)⟩) ops s hr

/-- C14 for regions without `sw_up`/`sw_down` and not combining `sw_last` with `sw_lolast`/`sw_hilast`: after every history,
the key-switch condition of a region with `sw_last` (or a range) is satisfied exactly if its key is (its range holds) the
last key-switch pressed, or the default one if none was pressed. The statement for `sw_up`/`sw_down` fails, see
`key_switch_down_violated`. -/
theorem key_switch_partial (m : Midi.State) (sw : Option Int) (n : Nat) (gl sl : Nat → Nat) (ops : List Op) (s : E)
    (hr : run c (load c m sw n gl sl) ops = some s) (l : Nat) (hl : l < c.numLayers)
    (hq : NoHold (c.regions l)) (hk : KeysOk (c.regions l)) (hlast : HasLast (c.regions l)) :
    (s.layers l).keySwitched = true ↔
      ∃ k, lastSwitch c sw ops = some k ∧
        ((c.regions l).lastKeyswitch = some k ∨ ∃ range, (c.regions l).lastKeyswitchRange = some range ∧
          containsWithEnd range k = true) := by
  obtain ⟨h1, h2⟩ := switch_after m sw n gl sl ops s hr
  have := h2 l hl hq hk (Or.inl hlast)
  unfold KeyFlag switchHolds at this
  rw [this, hk.uses hlast, h1]
  cases lastSwitch c sw ops with
  | none => simp
  | some k =>
    simp only [if_true, isLastSwitch, Bool.or_eq_true, decide_eq_true_eq]
    constructor
    · rintro (h | h)
      · exact ⟨k, rfl, Or.inl h⟩
      · cases hr : (c.regions l).lastKeyswitchRange with
        | none => rw [hr] at h; cases h
        | some range => rw [hr] at h; exact ⟨k, rfl, Or.inr ⟨range, rfl, h⟩⟩
    · rintro ⟨k', hk', h | ⟨range, h3, h4⟩⟩
      · cases hk'; exact Or.inl h
      · cases hk'; rw [h3]; exact Or.inr h4

/-! ### The decision -/

theorem randOk_iff (r : Region) (u : ℚ) : Layer.randOk r u = true ↔ randHolds r u := by
  unfold Layer.randOk randHolds Range.contains Range.isValid
  simp only [Bool.or_eq_true, Bool.and_eq_true, decide_eq_true_eq, Bool.false_or, ge_iff_le, and_assoc]

theorem registerNoteOn_iff (r : Region) (m : Midi.State) (s : Layer.State) (note : Int) (v u : ℚ)
    (hkey : containsWithEnd r.keyRange note = true) :
    (Layer.registerNoteOn r m s note v u).2 = true ↔
      Layer.isSwitchedOn (Layer.sequenceStep r s) = true ∧ containsWithEnd r.polyAftertouchRange (Layer.polyAftertouch m note) = true ∧
      r.triggerOnNote = true ∧ containsWithEnd r.velocityRange (if r.velocityPrevious then m.velocityOverride else v) = true ∧
      Layer.randOk r u = true ∧
      (r.trigger = .attack ∨ r.trigger = .first ∧ m.activeNotes = 1 ∨ r.trigger = .legato ∧ m.activeNotes > 1) := by
  unfold Layer.registerNoteOn
  simp only [hkey, if_true]
  generalize Layer.sequenceStep r s = s1
  cases h1 : Layer.isSwitchedOn s1 with
  | false => simp
  | true =>
    cases h2 : containsWithEnd r.polyAftertouchRange (Layer.polyAftertouch m note) with
    | false => simp
    | true =>
      cases h3 : r.triggerOnNote with
      | false => simp
      | true => simp [and_assoc, or_assoc]

/-- C12 (and C13). After every history, when the turn of region `l` comes in the dispatch of a note-on, the region is
triggered exactly if all its conditions hold for the last values received. Missing from the full statement: histories
that reset all controllers (`reset_bend_violated`), tempo conditions (`tempo_condition_violated`), `sw_up`/`sw_down`
(`key_switch_down_violated`), conditions on controllers that notes set (`note_controller_violated`); regions that also
trigger on controllers share their sequence counter with those. -/
theorem note_triggers_iff_partial (m : Midi.State) (sw : Option Int) (n : Nat) (gl sl : Nat → Nat) (ops : List Op) (s : E)
    (hr : run c (load c m sw n gl sl) ops = some s) (hreset : ∀ op ∈ ops, ¬ Resets op)
    (d note : Int) (v : ℚ) (pre post : List Nat) (l : Nat) (hturn : noteLayers c note = pre ++ l :: post)
    (hq : NoHold (c.regions l)) (hk : KeysOk (c.regions l))
    (hlast : HasLast (c.regions l) ∨ (c.regions l).usesKeySwitches = false)
    (hcc : (c.regions l).triggerOnCC = false)
    (htempo : containsWithEnd (c.regions l).bpmRange (60 / c.beatsPerSecond) = true)
    (sh : E × Option Nat)
    (hpre : pre.foldlM (noteOnLayer c d note v (c.rand s.draws))
      (noteOnSwitches c (draw (heardNote c s d note v)) note, none) = some sh) :
    (Layer.registerNoteOn (c.regions l) sh.1.midi (sh.1.layers l) note v (c.rand s.draws)).2 = true ↔
      Conditions c m sw ops (c.regions l) (heardNote c s d note v).midi d note v (c.rand s.draws) := by
  have hmem : l ∈ noteLayers c note := by rw [hturn]; simp
  have hl : l < c.numLayers ∧ containsWithEnd (c.regions l).keyRange note = true := by simpa [noteLayers] using hmem
  have hnd := noteLayers_nodup (c := c) note
  rw [hturn] at hnd
  have hnpre : l ∉ pre := fun h => (List.nodup_append.mp hnd).2.2 l h l (by simp) rfl
  have hheard : (heardNote c s d note v).currentSwitch = s.currentSwitch ∧ (heardNote c s d note v).layers = s.layers := by
    unfold heardNote; split <;> exact ⟨rfl, rfl⟩
  obtain ⟨f1, f2, f3⟩ := noteOnSwitches_frame (c := c) (draw (heardNote c s d note v)) note
  obtain ⟨k1, k2⟩ := layers_fold (noteOnLayer c d note v (c.rand s.draws)) (fun sh k => core (sh.1.layers k))
    (fun sh => sh.1.midi = (heardNote c s d note v).midi)
    (fun k x => if containsWithEnd (c.regions k).keyRange note then seqCore (c.regions k) x else x)
    pre (noteOnSwitches c (draw (heardNote c s d note v)) note, none) sh (List.nodup_append.mp hnd).1 f1 (by
      intro a _ x x' hx h
      obtain ⟨⟨p1, p2⟩, p3⟩ := noteOnLayer_core h
      exact ⟨p1.trans hx, by rw [p3 a, if_pos rfl], fun k hk => by rw [p3 k, if_neg hk]⟩) hpre
  have hcore : core (sh.1.layers l) = core (s.layers l) := by
    have := k2 l
    rw [if_neg hnpre] at this
    refine this.trans ((f3 l).trans ?_)
    show core ((heardNote c s d note v).layers l) = _
    rw [hheard.2]
  have hok := conditions_after m sw n gl sl ops s hr hl.1
  obtain ⟨hsw, hflag⟩ := switch_after m sw n gl sl ops s hr
  have hkey : (sh.1.layers l).keySwitched = switchHolds (c.regions l) (lastSwitch c sw (ops ++ [.noteOn d note v])) := by
    rw [noteOnLayers_key _ l hq hpre]
    have h0 : KeyFlag c (draw (heardNote c s d note v)) l := by
      have := hflag l hl.1 hq hk hlast
      unfold KeyFlag at this ⊢
      show ((heardNote c s d note v).layers l).keySwitched = switchHolds _ (heardNote c s d note v).currentSwitch
      rw [hheard.1, hheard.2]; exact this
    have h1 := noteOnSwitches_key (draw (heardNote c s d note v)) note l hl.1 hq hk h0
    unfold KeyFlag at h1
    refine h1.trans ?_
    rw [f2, lastSwitch_snoc, ← switchAfter_eq]
    show switchHolds _ (switchAfter c (heardNote c s d note v).currentSwitch note) = _
    rw [hheard.1, hsw]
  rw [registerNoteOn_iff _ _ _ _ _ _ hl.2, k1, randOk_iff]
  have hon : Layer.isSwitchedOn (Layer.sequenceStep (c.regions l) (sh.1.layers l)) = true ↔
      (sh.1.layers l).keySwitched = true ∧ (core (s.layers l)).previousKeySwitched = true ∧
      matching (c.regions l) ops % (c.regions l).sequenceLength + 1 = (c.regions l).sequencePosition ∧
      (core (s.layers l)).pitchSwitched = true ∧ (core (s.layers l)).programSwitched = true ∧
      (core (s.layers l)).bpmSwitched = true ∧ (core (s.layers l)).aftertouchSwitched = true ∧
      ∀ k, k < 512 → (core (s.layers l)).ccSwitched k = true := by
    rw [← hok.sequence hcc, ← hcore]
    unfold Layer.isSwitchedOn Layer.sequenceStep Layer.ccAll core
    simp only [Bool.and_eq_true, decide_eq_true_eq, List.all_eq_true, List.mem_range, and_assoc]
    have : ∀ a b : Nat, ((a : Int) = (b : Int) - 1) ↔ a + 1 = b := by intro a b; omega
    rw [this]
    rfl
  rw [hon, hkey, hok.previous, hok.bend hreset, hok.program, hok.bpm, hok.aftertouch]
  have hprev : prevFlag (c.regions l) (ops.filterMap pressedKey).getLast? = previousHolds (c.regions l) ((ops.filterMap pressedKey).getLast?) := by
    unfold prevFlag previousHolds
    rw [hk.previous]
    cases (c.regions l).previousKeyswitch with
    | none => rfl
    | some p =>
      cases (ops.filterMap pressedKey).getLast? with
      | none => rfl
      | some k => simp [eq_comm]
  rw [hprev]
  have hccs : (∀ k, k < 512 → (core (s.layers l)).ccSwitched k = true) ↔
      ∀ k, k < 512 → ∀ range, (c.regions l).ccConditions k = some range →
        containsWithEnd range (latest (sentCC c k) (Layer.ccValue m k) ops) = true := by
    constructor
    · intro h k hk range hrange
      have := h k hk
      rw [hok.cc k hk] at this
      simpa [condHolds, hrange] using this
    · intro h k hk
      rw [hok.cc k hk]
      unfold condHolds
      cases hrange : (c.regions l).ccConditions k with
      | none => rfl
      | some range => exact h k hk range hrange
  rw [hccs]
  unfold Conditions
  constructor
  · rintro ⟨⟨a1, a2, a3, a4, a5, _, a6, a7⟩, b1, b2, b3, b4, b5⟩
    exact ⟨b2, hl.2, b3, b4, b5, b1, a1, a2, a3, a4, a5, a6, a7⟩
  · rintro ⟨b2, _, b3, b4, b5, b1, a1, a2, a3, a4, a5, a6, a7⟩
    exact ⟨⟨a1, a2, a3, a4, a5, htempo, a6, a7⟩, b1, b2, b3, b4, b5⟩

/-- C13. After every history, on a note-on within the key range of region `l` (one that does not trigger on controllers):
when its turn comes, the sequence condition holds exactly if this note-on is, among the note-ons that fell into the key
range, one whose number leaves the remainder of `seq_position` modulo `seq_length`. -/
theorem round_robin (m : Midi.State) (sw : Option Int) (n : Nat) (gl sl : Nat → Nat) (ops : List Op) (s : E)
    (hr : run c (load c m sw n gl sl) ops = some s)
    (d note : Int) (v u : ℚ) (pre post : List Nat) (l : Nat) (hturn : noteLayers c note = pre ++ l :: post)
    (hcc : (c.regions l).triggerOnCC = false)
    (hpos : 1 ≤ (c.regions l).sequencePosition ∧ (c.regions l).sequencePosition ≤ (c.regions l).sequenceLength)
    (sh : E × Option Nat)
    (hpre : pre.foldlM (noteOnLayer c d note v (c.rand s.draws))
      (noteOnSwitches c (draw (heardNote c s d note v)) note, none) = some sh) :
    (Layer.registerNoteOn (c.regions l) sh.1.midi (sh.1.layers l) note v u).1.sequenceSwitched = true ↔
      matching (c.regions l) (ops ++ [.noteOn d note v]) % (c.regions l).sequenceLength =
        (c.regions l).sequencePosition % (c.regions l).sequenceLength := by
  have hmem : l ∈ noteLayers c note := by rw [hturn]; simp
  have hl : l < c.numLayers ∧ containsWithEnd (c.regions l).keyRange note = true := by simpa [noteLayers] using hmem
  have hnd := noteLayers_nodup (c := c) note
  rw [hturn] at hnd
  have hnpre : l ∉ pre := fun h => (List.nodup_append.mp hnd).2.2 l h l (by simp) rfl
  obtain ⟨f1, f2, f3⟩ := noteOnSwitches_frame (c := c) (draw (heardNote c s d note v)) note
  obtain ⟨_, k2⟩ := layers_fold (noteOnLayer c d note v (c.rand s.draws)) (fun sh k => core (sh.1.layers k))
    (fun _ => True)
    (fun k x => if containsWithEnd (c.regions k).keyRange note then seqCore (c.regions k) x else x)
    pre (noteOnSwitches c (draw (heardNote c s d note v)) note, none) sh (List.nodup_append.mp hnd).1 trivial (by
      intro a _ x x' hx h
      obtain ⟨⟨p1, p2⟩, p3⟩ := noteOnLayer_core h
      exact ⟨trivial, by rw [p3 a, if_pos rfl], fun k hk => by rw [p3 k, if_neg hk]⟩) hpre
  have hcore : core (sh.1.layers l) = core (s.layers l) := by
    have := k2 l
    rw [if_neg hnpre] at this
    refine this.trans ((f3 l).trans ?_)
    show core ((heardNote c s d note v).layers l) = _
    unfold heardNote; split <;> rfl
  have hreg := (registerNoteOn_core (c.regions l) sh.1.midi (sh.1.layers l) note v u).1
  rw [if_pos hl.2, hcore] at hreg
  have hseq := congrArg Core.sequenceSwitched hreg
  have hok := (conditions_after m sw n gl sl ops s hr hl.1).sequence hcc
  have e1 : (Layer.registerNoteOn (c.regions l) sh.1.midi (sh.1.layers l) note v u).1.sequenceSwitched =
      (seqCore (c.regions l) (core (s.layers l))).sequenceSwitched := hseq
  rw [e1, matching_snoc]
  unfold seqCore
  simp only [hok, pressedKey, hl.2, if_true, decide_eq_true_eq]
  generalize (c.regions l).sequenceLength = L at *
  generalize (c.regions l).sequencePosition = P at *
  generalize matching (c.regions l) ops = N
  have hL : 0 < L := by omega
  have h1 : N % L < L := Nat.mod_lt _ hL
  rw [Nat.add_mod]
  by_cases hL1 : L = 1
  · subst hL1
    have : P = 1 := by omega
    subst this; simp [Nat.mod_one]
  · rw [Nat.mod_eq_of_lt (show 1 < L by omega)]
    by_cases hP : P = L
    · subst hP
      rw [Nat.mod_self]
      constructor
      · intro h
        have : N % P + 1 = P := by omega
        rw [this, Nat.mod_self]
      · intro h
        by_contra hne
        have : N % P + 1 < P := by omega
        rw [Nat.mod_eq_of_lt this] at h
        omega
    · rw [Nat.mod_eq_of_lt (show P < L by omega)]
      by_cases hN : N % L + 1 = L
      · rw [hN, Nat.mod_self]; omega
      · rw [Nat.mod_eq_of_lt (show N % L + 1 < L by omega)]; omega

/-! ### Concrete cases -/

/-- Which regions sound after a history. -/
def soundingRegions (s : E) : List (Option Nat) := (soundingVoices s).map (fun i => (s.vm.voices i).layer)

/-- Three alternating regions, the third with a condition on controller 20. -/
def alternating : Cfg := demo [
  { sequenceLength := 3, sequencePosition := 1, usesSequenceSwitches := true },
  { sequenceLength := 3, sequencePosition := 2, usesSequenceSwitches := true, velocityRange := ⟨1 / 2, 1⟩ },
  { sequenceLength := 3, sequencePosition := 3, usesSequenceSwitches := true,
    ccConditions := fun k => if k = 20 then some ⟨1 / 2, 1⟩ else none }]

/-- C12, C13 on concrete histories: the second note is too soft for its region, the third sounds after the controller. -/
example : ((run alternating (demoLoad alternating 16 16) [.noteOn 0 60 1, .noteOn 0 61 (1 / 4), .noteOn 0 62 1,
    .noteOn 0 60 1, .noteOn 0 61 1, .cc 0 20 1, .noteOn 0 62 1]).map soundingRegions) =
      some [some 0, some 0, some 1, some 2] := by decide +kernel

/-- The hypotheses of `note_triggers_iff_partial` are met there by the third region. -/
example : noteLayers alternating 62 = [0, 1] ++ 2 :: [] ∧ NoHold (alternating.regions 2) ∧ KeysOk (alternating.regions 2) ∧
    (HasLast (alternating.regions 2) ∨ (alternating.regions 2).usesKeySwitches = false) ∧
    (alternating.regions 2).triggerOnCC = false ∧
    containsWithEnd (alternating.regions 2).bpmRange (60 / alternating.beatsPerSecond) = true :=
  ⟨by decide +kernel, ⟨rfl, rfl⟩, ⟨fun h => absurd h (by simp [HasLast, alternating, demo]), Or.inl rfl, rfl⟩, Or.inr rfl, rfl,
    by decide +kernel⟩

/-- Two key-switched regions: key 24, or keys 25 to 26; a third region for `sw_previous` 60. -/
def switched : Cfg := demo [
  { keyRange := ⟨60, 70⟩, usesKeySwitches := true, lastKeyswitch := some 24 },
  { keyRange := ⟨60, 70⟩, usesKeySwitches := true, lastKeyswitchRange := some ⟨25, 26⟩ },
  { keyRange := ⟨60, 70⟩, usesPreviousKeySwitches := true, previousKeyswitch := some 60 }]

/-- C14 on a concrete history: nothing before a switch; then region 1, then 0, and `sw_previous` after key 60. -/
example : ((run switched (demoLoad switched 16 16) [.noteOn 0 60 1, .noteOn 0 26 1, .noteOn 0 61 1, .noteOn 0 24 1,
    .noteOn 0 60 1, .noteOn 0 62 1]).map soundingRegions) = some [some 1, some 0, some 0, some 2] := by decide +kernel

example : lastSwitch switched none [.noteOn 0 60 1, .noteOn 0 26 1, .noteOn 0 61 1] = some 26 := by decide +kernel

theorem ccEvents_pitch (f : Nat → ℚ) (d : Int) (L : List Nat) : ∀ m : Midi.State,
    (L.foldl (fun m cc => Midi.ccEvent m d cc (f cc)) m).pitch = m.pitch := by
  induction L with
  | nil => intro m; rfl
  | cons a tl ih => intro m; rw [List.foldl_cons, ih]; rfl

theorem reset_pitch (s : E) (d : Int) (l : Nat) (hl : l < c.numLayers) :
    (resetAllControllers c s d).midi.pitch = (Midi.pitchBend s.midi d 0).pitch ∧
    ((resetAllControllers c s d).layers l).pitchSwitched = (s.layers l).pitchSwitched := by
  constructor
  · unfold resetAllControllers
    generalize List.range Layer.numCCs = L
    exact ccEvents_pitch _ _ L _
  · have h6 := (resetCore_fold (c.regions l) c.defaultCC (core (s.layers l)) Layer.numCCs).2.2.2.2.2.1
    have hc : core ((resetAllControllers c s d).layers l) = resetCore (c.regions l) c.defaultCC (core (s.layers l)) := by
      unfold resetAllControllers
      simp only
      rw [eachLayer_core _ _ hl, (resetLayerCCs_core _ _ _).1]
      rfl
    have h7 := congrArg Core.pitchSwitched hc
    unfold resetCore at h7
    generalize List.range Layer.numCCs = L at h6 h7
    exact h7.trans h6

/-- An instrument for bends above one half. -/
def bends : Cfg := demo [{ bendRange := ⟨1 / 2, 1⟩ }]

/-- C12 fails after a reset of all controllers: the bend is back at zero, but the region for bends above one half still
counts its condition as satisfied (Synth.cpp:2120-2138 does not tell the layers). -/
theorem reset_bend_violated : ∃ s s', run bends (demoLoad bends 4 8) [.pitchWheel 0 1] = some s ∧
    step bends s (.cc 0 121 0) = some s' ∧ Midi.backValue s'.midi.pitch = some 0 ∧
    containsWithEnd (bends.regions 0).bendRange 0 = false ∧ (s'.layers 0).pitchSwitched = true := by
  have hs : ((run bends (demoLoad bends 4 8) [.pitchWheel 0 1]).map
      (fun s => ((s.layers 0).pitchSwitched, Midi.backValue (Midi.pitchBend s.midi 0 0).pitch))) = some (true, some 0) := by
    decide +kernel
  cases hr : run bends (demoLoad bends 4 8) [.pitchWheel 0 1] with
  | none => rw [hr] at hs; cases hs
  | some s =>
    rw [hr] at hs
    simp only [Option.map_some, Option.some.injEq, Prod.mk.injEq] at hs
    obtain ⟨p1, p2⟩ := reset_pitch (c := bends) s 0 0 (by decide)
    have hst : step bends s (.cc 0 121 0) = some (resetAllControllers bends s 0) := by
      simp only [step, performHdcc, true_and, if_true]
    exact ⟨s, resetAllControllers bends s 0, rfl, hst, by rw [p1]; exact hs.2, by decide +kernel, by rw [p2]; exact hs.1⟩

/-- C12 fails for tempo conditions: at two beats per second (120 beats per minute) a region for 100 to 140 beats per
minute does not trigger, and one for 20 to 40 does: the condition is evaluated on 60 divided by the beats per second
(Synth.cpp:864, Layer.cpp:209-213). -/
theorem tempo_condition_violated :
    let c := demo [{ bpmRange := ⟨100, 140⟩ }, { bpmRange := ⟨20, 40⟩ }]
    ((run c (demoLoad c 4 8) [.noteOn 0 60 1]).map soundingRegions) = some [some 1] ∧ c.beatsPerSecond * 60 = 120 := by
  decide +kernel

/-- C12 fails for controllers set by notes: controller 131 is the velocity of the last note-on, but a region with a
condition on it never learns (only `performHdcc` tells the layers). -/
theorem note_controller_violated :
    let c := demo [{ ccConditions := fun k => if k = 131 then some ⟨1 / 2, 1⟩ else none }]
    ((run c (demoLoad c 4 8) [.noteOn 0 60 1, .noteOn 0 62 1]).map
      (fun s => (soundingRegions s, Layer.ccValue s.midi 131))) = some ([], 1) := by
  decide +kernel

/-- C14 fails for `sw_down`: key 36 is held down throughout, but once its voice has been choked by key 48 the region that
needs key 36 to be down no longer triggers (the note-off of the choke also changes the key-switches). -/
theorem key_switch_down_violated :
    let c := demo [{ keyRange := ⟨36, 36⟩, offBy := some 1 }, { keyRange := ⟨48, 48⟩, group := 1 },
      { keyRange := ⟨60, 60⟩, usesKeySwitches := true, downKeyswitch := some 36 }]
    ((run c (demoLoad c 4 8) [.noteOn 0 36 1, .noteOn 0 60 1]).map soundingRegions) = some [some 0, some 2] ∧
    ((run c (demoLoad c 4 8) [.noteOn 0 36 1, .noteOn 0 48 1, .noteOn 0 60 1]).map
      (fun s => (soundingRegions s, s.midi.noteStates 36))) = some ([some 1], true) := by
  decide +kernel

end Verif.Engine
