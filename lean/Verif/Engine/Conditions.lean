import Verif.Engine.CoreStep
import Mathlib.Data.List.Induction

/-! C12 (conditions of regions) and C13 (round robin), for every history of calls. -/
namespace Verif.Engine

open Verif.Layer (Region)
open Verif.Range (containsWithEnd)

variable (c : Cfg)

/-! ### Specification: the last values received -/

/-- The value a call sends to controller `k`: a controller message (MIDI or automation), the reset of all controllers
(CC 121), or the bend and aftertouch messages, which also count as controllers 128, 129 and 130. -/
def sentCC (k : Nat) : Op → Option ℚ
  | .cc _ k' v => if k' = 121 then some (c.defaultCC k) else if k' = 120 ∨ k' = 123 then none
      else if k' = k then some v else none
  | .automate _ k' v => if k' = k then some v else none
  | .pitchWheel _ v => if k = 128 then some v else none
  | .channelAftertouch _ v => if k = 129 then some v else none
  | .polyAftertouch _ _ v => if k = 130 then some v else none
  | _ => none

/-- The bend a call sets. -/
def sentBend : Op → Option ℚ
  | .pitchWheel _ v => some v
  | .cc _ k _ => if k = 121 then some 0 else none
  | _ => none

/-- The channel aftertouch a call sets. -/
def sentAftertouch : Op → Option ℚ
  | .channelAftertouch _ v => some v
  | _ => none

/-- The program a call selects. -/
def sentProgram : Op → Option Int
  | .program p => some p
  | _ => none

/-- The key a call presses. -/
def pressedKey : Op → Option Int
  | .noteOn _ n _ => some n
  | _ => none

/-- The last value given by the calls, or the initial one. -/
def latest {α : Type} (f : Op → Option α) (init : α) (ops : List Op) : α := ((ops.filterMap f).getLast?).getD init

/-- How many note-ons fell into the key range of the region. -/
def matching (r : Region) (ops : List Op) : Nat :=
  ((ops.filterMap pressedKey).filter (fun n => containsWithEnd r.keyRange n)).length

/-- The history resets all controllers. -/
def Resets (op : Op) : Prop := ∃ d v, op = .cc d 121 v

/-! ### Proofs -/

variable {c}

theorem latest_snoc {α : Type} (f : Op → Option α) (init : α) (ops : List Op) (op : Op) :
    latest f init (ops ++ [op]) = (f op).getD (latest f init ops) := by
  unfold latest
  rw [List.filterMap_append]
  cases h : f op <;> simp [h]

theorem run_snoc (s : E) (ops : List Op) (op : Op) : run c s (ops ++ [op]) = (run c s ops).bind (fun s => step c s op) := by
  unfold run
  rw [List.foldlM_append]
  simp only [List.foldlM_cons, List.foldlM_nil]
  cases List.foldlM (step c) s ops with
  | none => rfl
  | some s1 =>
    show (step c s1 op).bind (fun s => some s) = step c s1 op
    cases step c s1 op <;> rfl

/-- Induction over histories. -/
theorem history_induction {s0 : E} {P : List Op → E → Prop} (h0 : P [] s0)
    (hs : ∀ ops s op s', run c s0 ops = some s → P ops s → step c s op = some s' → P (ops ++ [op]) s') :
    ∀ ops s, run c s0 ops = some s → P ops s := by
  intro ops
  induction ops using List.reverseRecOn with
  | nil => intro s h; cases h; exact h0
  | append_singleton ops op ih =>
    intro s h
    rw [run_snoc, Option.bind_eq_some_iff] at h
    obtain ⟨s1, h1, h2⟩ := h
    exact hs ops s1 op s h1 (ih s1 h1) h2

theorem condCore_cc (r : Region) (k : Core) (cc : Nat) (v : ℚ) : (condCore r k cc v).ccSwitched = condAfter r k.ccSwitched cc v := rfl

/-- The condition on a controller evaluated on a value, or the given flag when there is none. -/
def condElse (r : Region) (b : Bool) (cc : Nat) (v : ℚ) : Bool :=
  match r.ccConditions cc with
  | none => b
  | some range => containsWithEnd range v

theorem condAfter_apply (r : Region) (f : Nat → Bool) (cc : Nat) (v : ℚ) (k : Nat) :
    condAfter r f cc v k = if k = cc then condElse r (f k) cc v else f k := by
  unfold condAfter condElse
  cases r.ccConditions cc with
  | none => simp
  | some range => simp only [Midi.upd]

theorem resetCore_fold (r : Region) (f : Nat → ℚ) (k : Core) (n : Nat) :
    let k' := (List.range n).foldl (fun k cc => condCore r k cc (f cc)) k
    (∀ j, k'.ccSwitched j = if j < n then (condElse r (k.ccSwitched j) j (f j)) else k.ccSwitched j) ∧
    k'.sustainPressed = (if r.sustainCC < n then (r.checkSustain && decide (f r.sustainCC ≥ r.sustainThreshold)) else k.sustainPressed) ∧
    k'.sostenutoPressed = (if r.sostenutoCC < n then (r.checkSostenuto && decide (f r.sostenutoCC ≥ r.sostenutoThreshold))
      else k.sostenutoPressed) ∧
    k'.previousKeySwitched = k.previousKeySwitched ∧ k'.sequenceSwitched = k.sequenceSwitched ∧
    k'.pitchSwitched = k.pitchSwitched ∧ k'.programSwitched = k.programSwitched ∧ k'.bpmSwitched = k.bpmSwitched ∧
    k'.aftertouchSwitched = k.aftertouchSwitched ∧ k'.sequenceCounter = k.sequenceCounter := by
  induction n with
  | zero => simp
  | succ n ih =>
    simp only [List.range_succ, List.foldl_append, List.foldl_cons, List.foldl_nil] at ih ⊢
    obtain ⟨h1, h2, h3, h4⟩ := ih
    refine ⟨?_, ?_, ?_, h4⟩
    · intro j
      rw [condCore_cc, condAfter_apply, h1 j]
      by_cases hj : j = n
      · subst hj; simp
      · rw [if_neg hj]
        by_cases hlt : j < n
        · rw [if_pos hlt, if_pos (by omega)]
        · rw [if_neg hlt, if_neg (by omega)]
    · show (if n = r.sustainCC then _ else _) = _
      rw [h2]
      by_cases hj : n = r.sustainCC
      · rw [if_pos hj, if_pos (by omega), ← hj]
      · rw [if_neg hj]
        by_cases hlt : r.sustainCC < n
        · rw [if_pos hlt, if_pos (by omega)]
        · rw [if_neg hlt, if_neg (by omega)]
    · show (if n = r.sostenutoCC then _ else _) = _
      rw [h3]
      by_cases hj : n = r.sostenutoCC
      · rw [if_pos hj, if_pos (by omega), ← hj]
      · rw [if_neg hj]
        by_cases hlt : r.sostenutoCC < n
        · rw [if_pos hlt, if_pos (by omega)]
        · rw [if_neg hlt, if_neg (by omega)]

/-- The condition on controller `k`, evaluated on a value. -/
def condHolds (r : Region) (k : Nat) (v : ℚ) : Bool :=
  match r.ccConditions k with
  | none => true
  | some range => containsWithEnd range v

theorem seqCore_rest (r : Region) (k : Core) :
    (seqCore r k).ccSwitched = k.ccSwitched ∧ (seqCore r k).pitchSwitched = k.pitchSwitched ∧
    (seqCore r k).programSwitched = k.programSwitched ∧ (seqCore r k).aftertouchSwitched = k.aftertouchSwitched ∧
    (seqCore r k).bpmSwitched = k.bpmSwitched ∧ (seqCore r k).previousKeySwitched = k.previousKeySwitched :=
  ⟨rfl, rfl, rfl, rfl, rfl, rfl⟩

theorem ccCore_rest (r : Region) (k : Core) (cc : Nat) (v u : ℚ) (arg : Int) :
    (ccCore r k cc v u arg).ccSwitched = condAfter r k.ccSwitched cc v ∧
    (ccCore r k cc v u arg).pitchSwitched = k.pitchSwitched ∧
    (ccCore r k cc v u arg).programSwitched = k.programSwitched ∧
    (ccCore r k cc v u arg).aftertouchSwitched = k.aftertouchSwitched ∧
    (ccCore r k cc v u arg).bpmSwitched = k.bpmSwitched ∧
    (ccCore r k cc v u arg).previousKeySwitched = k.previousKeySwitched ∧
    (r.triggerOnCC = false → (ccCore r k cc v u arg).sequenceCounter = k.sequenceCounter) := by
  unfold ccCore
  split
  · rename_i h
    refine ⟨rfl, rfl, rfl, rfl, rfl, rfl, fun ht => ?_⟩
    simp [ccCounts, ht] at h
  · exact ⟨rfl, rfl, rfl, rfl, rfl, rfl, fun _ => rfl⟩

theorem noteOnCore_rest (r : Region) (n : Int) (k : Core) :
    (noteOnCore r n k).ccSwitched = k.ccSwitched ∧ (noteOnCore r n k).pitchSwitched = k.pitchSwitched ∧
    (noteOnCore r n k).programSwitched = k.programSwitched ∧ (noteOnCore r n k).aftertouchSwitched = k.aftertouchSwitched ∧
    (noteOnCore r n k).bpmSwitched = k.bpmSwitched ∧
    (noteOnCore r n k).previousKeySwitched =
      (if r.previousKeyswitch.isSome then decide (r.previousKeyswitch = some n) else k.previousKeySwitched) ∧
    (noteOnCore r n k).sequenceCounter = k.sequenceCounter + (if containsWithEnd r.keyRange n then 1 else 0) := by
  unfold noteOnCore prevCore
  split <;> split <;> exact ⟨rfl, rfl, rfl, rfl, rfl, rfl, rfl⟩

/-- The `sw_previous` flag for the last key pressed. -/
def prevFlag (r : Region) (last : Option Int) : Bool :=
  match r.previousKeyswitch, last with
  | some p, some n => decide (p = n)
  | _, _ => !r.usesPreviousKeySwitches

/-- Where a layer stands after a history. -/
structure CondOk (m : Midi.State) (ops : List Op) (s : E) (l : Nat) : Prop where
  cc : ∀ k, k < 512 → (core (s.layers l)).ccSwitched k =
    condHolds (c.regions l) k (latest (sentCC c k) (Layer.ccValue m k) ops)
  program : (core (s.layers l)).programSwitched =
    containsWithEnd (c.regions l).programRange (latest sentProgram m.currentProgram ops)
  aftertouch : (core (s.layers l)).aftertouchSwitched =
    containsWithEnd (c.regions l).aftertouchRange (latest sentAftertouch ((Midi.backValue m.channelAftertouch).getD 0) ops)
  bend : (∀ op ∈ ops, ¬ Resets op) → (core (s.layers l)).pitchSwitched =
    containsWithEnd (c.regions l).bendRange (latest sentBend ((Midi.backValue m.pitch).getD 0) ops)
  bpm : (core (s.layers l)).bpmSwitched = containsWithEnd (c.regions l).bpmRange (60 / c.beatsPerSecond)
  previous : (core (s.layers l)).previousKeySwitched = prevFlag (c.regions l) (ops.filterMap pressedKey).getLast?
  sequence : (c.regions l).triggerOnCC = false → (core (s.layers l)).sequenceCounter = matching (c.regions l) ops

theorem registerPitchWheel_core (r : Region) (s : Layer.State) (v : ℚ) :
    core (Layer.registerPitchWheel r s v) = { core s with pitchSwitched := containsWithEnd r.bendRange v } := rfl

theorem registerAftertouch_core (r : Region) (s : Layer.State) (v : ℚ) :
    core (Layer.registerAftertouch r s v) = { core s with aftertouchSwitched := containsWithEnd r.aftertouchRange v } := rfl

theorem registerProgram_core (r : Region) (s : Layer.State) (p : Int) :
    core (Layer.registerProgramChange r s p) = { core s with programSwitched := containsWithEnd r.programRange p } := rfl

theorem matching_snoc (r : Region) (ops : List Op) (op : Op) :
    matching r (ops ++ [op]) = matching r ops + (match pressedKey op with
      | some n => if containsWithEnd r.keyRange n then 1 else 0
      | none => 0) := by
  unfold matching
  rw [List.filterMap_append]
  cases h : pressedKey op with
  | none => simp [h]
  | some n =>
    simp only [List.filterMap_cons, h, List.filterMap_nil, List.filter_append, List.length_append]
    congr 1
    rw [List.filter_cons]
    split <;> simp

theorem pressed_snoc (ops : List Op) (op : Op) :
    ((ops ++ [op]).filterMap pressedKey).getLast? = match pressedKey op with
      | some n => some n
      | none => (ops.filterMap pressedKey).getLast? := by
  rw [List.filterMap_append]
  cases h : pressedKey op with
  | none => simp [h]
  | some n => simp [h]

/-- A call that sends one value to one controller, with an effect on the rest given by `pre`. -/
theorem CondOk.hdcc {m : Midi.State} {ops : List Op} {s s1 s' : E} {l : Nat} {op : Op} {d : Int} {k : Nat} {v : ℚ}
    {asMidi : Bool} {arg : Int} (h : CondOk (c := c) m ops s l) (hcore : ∃ b a, core (s1.layers l) =
      { core (s.layers l) with pitchSwitched := b, aftertouchSwitched := a } ∧
      ((∀ o ∈ ops, ¬ Resets o) → b = containsWithEnd (c.regions l).bendRange
        (latest sentBend ((Midi.backValue m.pitch).getD 0) (ops ++ [op]))) ∧
      a = containsWithEnd (c.regions l).aftertouchRange
        (latest sentAftertouch ((Midi.backValue m.channelAftertouch).getD 0) (ops ++ [op])))
    (hn : isCommand asMidi k = false) (hs : performHdcc c s1 d k v asMidi arg = some s')
    (hsent : ∀ j, sentCC c j op = if j = k then some v else none)
    (hprog : sentProgram op = none) (hkey : pressedKey op = none) (hl : l < c.numLayers) :
    CondOk (c := c) m (ops ++ [op]) s' l := by
  obtain ⟨_, _, h3⟩ := performHdcc_core hn hs
  obtain ⟨b, a, e1, e2, e3⟩ := hcore
  have hc : core (s'.layers l) = core (s1.layers l) ∨
      core (s'.layers l) = ccCore (c.regions l) (core (s1.layers l)) k v (c.rand s1.draws) arg := by
    rw [h3]; split
    · exact Or.inr rfl
    · exact Or.inl rfl
  have hcc : ∀ j, (core (s'.layers l)).ccSwitched j = condAfter (c.regions l) (core (s1.layers l)).ccSwitched k v j := by
    intro j
    rw [h3]
    split
    · rw [(ccCore_rest _ _ _ _ _ _).1]
    · rename_i hm
      rw [condAfter_apply]
      split
      · cases hcd : (c.regions l).ccConditions k with
        | none => simp [condElse, hcd]
        | some range =>
          exfalso; apply hm
          simp [ccLayers, hl, hcd]
      · rfl
  have hrest : (core (s'.layers l)).pitchSwitched = b ∧ (core (s'.layers l)).aftertouchSwitched = a ∧
      (core (s'.layers l)).programSwitched = (core (s.layers l)).programSwitched ∧
      (core (s'.layers l)).bpmSwitched = (core (s.layers l)).bpmSwitched ∧
      (core (s'.layers l)).previousKeySwitched = (core (s.layers l)).previousKeySwitched ∧
      ((c.regions l).triggerOnCC = false → (core (s'.layers l)).sequenceCounter = (core (s.layers l)).sequenceCounter) := by
    rcases hc with hc | hc
    · rw [hc, e1]; exact ⟨rfl, rfl, rfl, rfl, rfl, fun _ => rfl⟩
    · obtain ⟨_, p2, p3, p4, p5, p6, p7⟩ := ccCore_rest (c.regions l) (core (s1.layers l)) k v (c.rand s1.draws) arg
      rw [hc]
      refine ⟨p2.trans (by rw [e1]), p4.trans (by rw [e1]), p3.trans (by rw [e1]), p5.trans (by rw [e1]),
        p6.trans (by rw [e1]), fun ht => (p7 ht).trans (by rw [e1])⟩
  obtain ⟨r1, r2, r3, r4, r5, r6⟩ := hrest
  constructor
  · intro j hj
    rw [hcc j, condAfter_apply, e1, latest_snoc, hsent j]
    by_cases hjk : j = k
    · subst hjk
      rw [if_pos rfl, if_pos rfl]
      have := h.cc j hj
      simp only [condHolds, condElse, Option.getD_some] at this ⊢
      cases hcd : (c.regions l).ccConditions j with
      | none => rw [hcd] at this; simpa using this
      | some range => rfl
    · rw [if_neg hjk, if_neg hjk]
      exact h.cc j hj
  · rw [r3, h.program, latest_snoc, hprog]; rfl
  · rw [r2, e3]
  · intro hr
    rw [r1]; exact e2 (fun o ho => hr o (by simp [ho]))
  · rw [r4, h.bpm]
  · rw [r5, h.previous, pressed_snoc, hkey]
  · intro ht; rw [r6 ht, h.sequence ht, matching_snoc, hkey]; simp

/-- A call that leaves the core of the layer alone and says nothing about conditions. -/
theorem CondOk.quiet {m : Midi.State} {ops : List Op} {s s' : E} {l : Nat} {op : Op} (h : CondOk (c := c) m ops s l)
    (hcore : core (s'.layers l) = core (s.layers l)) (h1 : ∀ k, sentCC c k op = none) (h2 : sentProgram op = none)
    (h3 : sentAftertouch op = none) (h4 : sentBend op = none) (h5 : pressedKey op = none) :
    CondOk (c := c) m (ops ++ [op]) s' l := by
  constructor
  · intro k hk; rw [hcore, h.cc k hk, latest_snoc, h1]; rfl
  · rw [hcore, h.program, latest_snoc, h2]; rfl
  · rw [hcore, h.aftertouch, latest_snoc, h3]; rfl
  · intro hr; rw [hcore, h.bend (fun o ho => hr o (by simp [ho])), latest_snoc, h4]; rfl
  · rw [hcore, h.bpm]
  · rw [hcore, h.previous, pressed_snoc, h5]
  · intro ht; rw [hcore, h.sequence ht, matching_snoc, h5]; simp

theorem eachLayer_core (f : Nat → Layer.State → Layer.State) (s : E) {l : Nat} (hl : l < c.numLayers) :
    core ((eachLayer c f s).layers l) = core (f l (s.layers l)) := by
  simp [eachLayer, hl]

/-- Every call keeps the conditions up to date. -/
theorem CondOk.step {m : Midi.State} {ops : List Op} {s s' : E} {l : Nat} {op : Op} (h : CondOk (c := c) m ops s l)
    (hl : l < c.numLayers) (hs : step c s op = some s') : CondOk (c := c) m (ops ++ [op]) s' l := by
  have keepAll : core (s.layers l) = { core (s.layers l) with
      pitchSwitched := (core (s.layers l)).pitchSwitched, aftertouchSwitched := (core (s.layers l)).aftertouchSwitched } := rfl
  cases op with
  | noteOn d n v =>
    simp only [Engine.step, hdNoteOn] at hs
    obtain ⟨_, _, h3⟩ := noteOnDispatch_core hs
    have hcore : core (s'.layers l) = noteOnCore (c.regions l) n (core (s.layers l)) := by
      rw [h3, if_pos hl]
      congr 2
      split <;> rfl
    obtain ⟨p1, p2, p3, p4, p5, p6, p7⟩ := noteOnCore_rest (c.regions l) n (core (s.layers l))
    constructor
    · intro k hk; rw [hcore, p1, h.cc k hk, latest_snoc]; rfl
    · rw [hcore, p3, h.program, latest_snoc]; rfl
    · rw [hcore, p4, h.aftertouch, latest_snoc]; rfl
    · intro hr; rw [hcore, p2, h.bend (fun o ho => hr o (by simp [ho])), latest_snoc]; rfl
    · rw [hcore, p5, h.bpm]
    · rw [hcore, p6, h.previous, pressed_snoc]
      cases hp : (c.regions l).previousKeyswitch with
      | none => simp [prevFlag, hp]
      | some p => simp [pressedKey, prevFlag, hp]
    · intro ht; rw [hcore, p7, h.sequence ht, matching_snoc]; rfl
  | noteOff d n v =>
    exact h.quiet ((hdNoteOff_core hs).2 l) (fun _ => rfl) rfl rfl rfl rfl
  | cc d k v =>
    by_cases hk : isCommand true k = true
    · simp only [isCommand, Bool.true_and, Bool.or_eq_true, decide_eq_true_eq] at hk
      by_cases h121 : k = 121
      · subst h121
        have hs' : s' = resetAllControllers c s d := by
          simp only [Engine.step, performHdcc, true_and, if_true] at hs
          cases hs; rfl
        have hcore : core (s'.layers l) = resetCore (c.regions l) c.defaultCC (core (s.layers l)) := by
          rw [hs']
          unfold resetAllControllers
          simp only
          rw [eachLayer_core _ _ hl, (resetLayerCCs_core _ _ _).1]
          rfl
        obtain ⟨q1, q2, q3, q4, q5, q6, q7, q8, q9, q10⟩ := resetCore_fold (c.regions l) c.defaultCC (core (s.layers l)) 512
        have hr : resetCore (c.regions l) c.defaultCC (core (s.layers l)) =
            (List.range 512).foldl (fun k cc => condCore (c.regions l) k cc (c.defaultCC cc)) (core (s.layers l)) := rfl
        rw [← hr, ← hcore] at q1 q4 q5 q6 q7 q8 q9 q10
        constructor
        · intro j hj
          rw [q1 j, if_pos hj, latest_snoc]
          have := h.cc j hj
          simp only [sentCC, condHolds, condElse, if_true, Option.getD_some] at this ⊢
          cases hcd : (c.regions l).ccConditions j with
          | none => rw [hcd] at this; simpa using this
          | some range => rfl
        · rw [q7, h.program, latest_snoc]; rfl
        · rw [q9, h.aftertouch, latest_snoc]; rfl
        · intro hr
          exact absurd ⟨d, v, rfl⟩ (hr (.cc d 121 v) (by simp))
        · rw [q8, h.bpm]
        · rw [q4, h.previous, pressed_snoc]; rfl
        · intro ht; rw [q10, h.sequence ht, matching_snoc]; simp [pressedKey]
      · have hk' : k = 120 ∨ k = 123 := by omega
        obtain ⟨_, _, p3⟩ := performHdcc_off hk' hs
        refine h.quiet (by rw [p3]) ?_ rfl rfl ?_ rfl
        · intro j
          simp only [sentCC, h121, if_false, hk', if_true]
        · simp only [sentBend, h121, if_false]
    · have hk' : isCommand true k = false := by simpa using hk
      have hk2 := hk'
      simp only [isCommand, Bool.true_and, Bool.or_eq_false_iff, decide_eq_false_iff_not] at hk2
      obtain ⟨⟨n1, n2⟩, n3⟩ := hk2
      refine h.hdcc (op := .cc d k v) (s1 := s) ⟨_, _, keepAll, ?_, ?_⟩ hk' hs ?_ rfl rfl hl
      · intro hr
        rw [h.bend hr, latest_snoc]
        simp [sentBend, n1]
      · rw [h.aftertouch, latest_snoc]; rfl
      · intro j
        simp only [sentCC, n1, n2, n3, if_false, or_self]
        by_cases hj : k = j
        · simp [hj]
        · simp [hj, Ne.symm hj]
  | automate d k v =>
    refine h.hdcc (op := .automate d k v) (s1 := s) ⟨_, _, keepAll, ?_, ?_⟩ (by simp [isCommand]) hs ?_ rfl rfl hl
    · intro hr
      rw [h.bend hr, latest_snoc]; rfl
    · rw [h.aftertouch, latest_snoc]; rfl
    · intro j
      simp only [sentCC]
      by_cases hj : k = j
      · simp [hj]
      · simp [hj, Ne.symm hj]
  | pitchWheel d v =>
    simp only [Engine.step, hdPitchWheel] at hs
    refine h.hdcc (op := .pitchWheel d v) ⟨containsWithEnd (c.regions l).bendRange v,
      (core (s.layers l)).aftertouchSwitched, ?_, ?_, ?_⟩ (by simp [isCommand]) hs ?_ rfl rfl hl
    · rw [eachLayer_core _ _ hl, registerPitchWheel_core]
    · intro _; rw [latest_snoc]; rfl
    · rw [h.aftertouch, latest_snoc]; rfl
    · intro j; rfl
  | program p =>
    simp only [Engine.step, programChange] at hs
    cases hs
    have hcore := eachLayer_core (c := c) (fun l ls => Layer.registerProgramChange (c.regions l) ls p)
      { s with midi := Midi.programChange s.midi p } hl
    rw [registerProgram_core] at hcore
    constructor
    · intro k hk; rw [hcore, latest_snoc]; exact h.cc k hk
    · rw [hcore, latest_snoc]; rfl
    · rw [hcore, latest_snoc]; exact h.aftertouch
    · intro hr; rw [hcore, latest_snoc]; exact h.bend (fun o ho => hr o (by simp [ho]))
    · rw [hcore]; exact h.bpm
    · rw [hcore, pressed_snoc]; exact h.previous
    · intro ht; rw [hcore, matching_snoc]; exact h.sequence ht
  | channelAftertouch d v =>
    simp only [Engine.step, hdChannelAftertouch] at hs
    refine h.hdcc (op := .channelAftertouch d v) ⟨(core (s.layers l)).pitchSwitched,
      containsWithEnd (c.regions l).aftertouchRange v, ?_, ?_, ?_⟩ (by simp [isCommand]) hs ?_ rfl rfl hl
    · rw [eachLayer_core _ _ hl, registerAftertouch_core]
    · intro hr; rw [h.bend hr, latest_snoc]; rfl
    · rw [latest_snoc]; rfl
    · intro j; rfl
  | polyAftertouch d n v =>
    simp only [Engine.step, hdPolyAftertouch] at hs
    refine h.hdcc (op := .polyAftertouch d n v) (s1 := { s with midi := Midi.polyAftertouch s.midi d n v })
      ⟨_, _, keepAll, ?_, ?_⟩ (by simp [isCommand]) hs ?_ rfl rfl hl
    · intro hr; rw [h.bend hr, latest_snoc]; rfl
    · rw [h.aftertouch, latest_snoc]; rfl
    · intro j; rfl
  | render f snd =>
    refine h.quiet ?_ (fun _ => rfl) rfl rfl rfl rfl
    simp only [Engine.step, render] at hs
    split at hs
    · cases hs; rfl
    · rw [Option.bind_eq_bind, Option.bind_eq_some_iff] at hs
      obtain ⟨s1, k1, k2⟩ := hs
      cases k2
      show core (s1.layers l) = _
      rw [(eachVoiceM_frame k1).2.2.1]
  | allSoundOff =>
    exact h.quiet (by rw [(eachVoiceM_frame hs).2.2.1]) (fun _ => rfl) rfl rfl rfl rfl
  | setNumVoices n =>
    refine h.quiet ?_ (fun _ => rfl) rfl rfl rfl rfl
    simp only [Engine.step] at hs
    cases hs
    unfold setNumVoices
    split <;> rfl

end Verif.Engine
