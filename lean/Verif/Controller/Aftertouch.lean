import Verif.Envelope.Props
import Verif.Engine.Model

/-!
C134: aftertouch as a source of modulation. Model of `PolyAftertouchSource::generate` (modulations/sources/PolyAftertouch.cpp:25-39) and
`ChannelAftertouchSource::generate` (modulations/sources/ChannelAftertouch.cpp:25-31).
-/
namespace Verif.Aftertouch

open Verif.Envelope

/-- `getPolyAftertouchEvents` (MidiState.cpp:288-294). -/
def polyEvents (m : Midi.State) (note : Int) : Midi.EventVector := if note < 0 ∨ note > 127 then [⟨0, 0⟩] else m.polyAftertouch note.toNat

/-- `PolyAftertouchSource::generate` for a voice with this trigger (modulations/sources/PolyAftertouch.cpp:25-39). -/
def polySource (m : Midi.State) (trig : Engine.Trig) (size : Nat) : Option Log :=
  if trig.type = .cc then some (fun i => if i < size then [0] else [])
  else linearEnvelope (fun x => x) (polyEvents m trig.number) size

/-- `ChannelAftertouchSource::generate` (modulations/sources/ChannelAftertouch.cpp:25-31). -/
def channelSource (m : Midi.State) (size : Nat) : Option Log := linearEnvelope (fun x => x) m.channelAftertouch size

/-! ### Specification -/

/-- What a history says about the pressure on one key: its messages and the passing of blocks. -/
def aboutKey (key : Int) : Midi.Op → Bool
  | .polyAftertouch _ n _ => decide (n = key)
  | .advance _ => true
  | .flush => true
  | .resetEventStates => true
  | _ => false

/-- What it says about the pressure of the channel. -/
def aboutChannel : Midi.Op → Bool
  | .chanAftertouch _ _ => true
  | .advance _ => true
  | .flush => true
  | .resetEventStates => true
  | _ => false

/-! ### Lemmas -/

theorem noteOff_keeps (s : Midi.State) (d n : Int) (v u b : ℚ) :
    (Midi.noteOff s d n v u b).polyAftertouch = s.polyAftertouch ∧ (Midi.noteOff s d n v u b).channelAftertouch = s.channelAftertouch := by
  unfold Midi.noteOff
  split
  · exact ⟨rfl, rfl⟩
  · exact ⟨rfl, rfl⟩

theorem noteOn_keeps (s : Midi.State) (d n : Int) (v u b : ℚ) :
    (Midi.noteOn s d n v u b).polyAftertouch = s.polyAftertouch ∧ (Midi.noteOn s d n v u b).channelAftertouch = s.channelAftertouch := by
  unfold Midi.noteOn
  split
  · exact ⟨rfl, rfl⟩
  · exact ⟨rfl, rfl⟩

theorem allOff_keeps (s : Midi.State) (d : Int) (r : Nat → ℚ × ℚ) (k : Nat) :
    (Midi.allNotesOffLoop s d r k).polyAftertouch = s.polyAftertouch ∧ (Midi.allNotesOffLoop s d r k).channelAftertouch = s.channelAftertouch := by
  induction k with
  | zero => exact ⟨rfl, rfl⟩
  | succ k ih =>
    simp only [Midi.allNotesOffLoop]
    have := noteOff_keeps (Midi.allNotesOffLoop s d r k) d k 0 (r k).1 (r k).2
    exact ⟨this.1.trans ih.1, this.2.trans ih.2⟩

theorem step_key (key : Nat) (s s' : Midi.State) (h : s.polyAftertouch key = s'.polyAftertouch key) (op : Midi.Op) :
    (Midi.step s op).polyAftertouch key = (if aboutKey key op then Midi.step s' op else s').polyAftertouch key := by
  cases op with
  | noteOn d n v u b => simp only [aboutKey, Midi.step, (noteOn_keeps s d n v u b).1]; exact h
  | noteOff d n v u b => simp only [aboutKey, Midi.step, (noteOff_keeps s d n v u b).1]; exact h
  | allNotesOff d r => simp only [aboutKey, Midi.step, Midi.allNotesOff, (allOff_keeps s d r 128).1]; exact h
  | cc d n v => exact h
  | pitchBend d v => exact h
  | chanAftertouch d v => exact h
  | polyAftertouch d n v =>
    simp only [aboutKey, Midi.step]
    unfold Midi.polyAftertouch
    by_cases hn : n = (key : Int)
    · subst hn
      simp only [decide_true, if_true]
      split
      · exact h
      · simp only [Int.toNat_natCast, Midi.upd, if_true]
        rw [h]
    · simp only [hn, decide_false]
      split
      · exact h
      · rename_i hr
        show Midi.upd _ _ _ key = _
        unfold Midi.upd
        rw [if_neg (by omega)]
        exact h
  | programChange p => exact h
  | advance n => simp only [aboutKey, Midi.step, Midi.advanceTime, Midi.flushEvents, if_true, h]
  | flush => simp only [aboutKey, Midi.step, Midi.flushEvents, if_true, h]
  | setSampleRate => exact h
  | resetNoteStates => exact h
  | resetEventStates => rfl

theorem step_channel (s s' : Midi.State) (h : s.channelAftertouch = s'.channelAftertouch) (op : Midi.Op) :
    (Midi.step s op).channelAftertouch = (if aboutChannel op then Midi.step s' op else s').channelAftertouch := by
  cases op with
  | noteOn d n v u b => simp only [aboutChannel, Midi.step, (noteOn_keeps s d n v u b).2]; exact h
  | noteOff d n v u b => simp only [aboutChannel, Midi.step, (noteOff_keeps s d n v u b).2]; exact h
  | allNotesOff d r => simp only [aboutChannel, Midi.step, Midi.allNotesOff, (allOff_keeps s d r 128).2]; exact h
  | cc d n v => exact h
  | pitchBend d v => exact h
  | chanAftertouch d v => simp only [aboutChannel, Midi.step, Midi.chanAftertouch, if_true, h]
  | polyAftertouch d n v =>
    simp only [aboutChannel, Midi.step]
    unfold Midi.polyAftertouch
    split
    · exact h
    · exact h
  | programChange p => exact h
  | advance n => simp only [aboutChannel, Midi.step, Midi.advanceTime, Midi.flushEvents, if_true, h]
  | flush => simp only [aboutChannel, Midi.step, Midi.flushEvents, if_true, h]
  | setSampleRate => exact h
  | resetNoteStates => exact h
  | resetEventStates => rfl

theorem key_filter (key : Nat) (ops : List Midi.Op) : ∀ s s' : Midi.State, s.polyAftertouch key = s'.polyAftertouch key →
    (ops.foldl Midi.step s).polyAftertouch key = ((ops.filter (aboutKey key)).foldl Midi.step s').polyAftertouch key := by
  induction ops with
  | nil => intro s s' h; exact h
  | cons op ops ih =>
    intro s s' h
    have := step_key key s s' h op
    rw [List.filter_cons]
    cases ha : aboutKey (key : Int) op with
    | true => rw [ha] at this; exact ih _ _ this
    | false => rw [ha] at this; exact ih _ _ this

theorem channel_filter (ops : List Midi.Op) : ∀ s s' : Midi.State, s.channelAftertouch = s'.channelAftertouch →
    (ops.foldl Midi.step s).channelAftertouch = ((ops.filter aboutChannel).foldl Midi.step s').channelAftertouch := by
  induction ops with
  | nil => intro s s' h; exact h
  | cons op ops ih =>
    intro s s' h
    have := step_channel s s' h op
    rw [List.filter_cons]
    cases ha : aboutChannel op with
    | true => rw [ha] at this; exact ih _ _ this
    | false => rw [ha] at this; exact ih _ _ this

/-! ### The theorems -/

/-- **C134, keys.** For every history, a voice started by a note of key `n` is modulated with the pressure on this key: a curve through
the messages for the key (straight from one to the next, the last value kept); nothing said about other keys, controllers, bends, or
the channel matters. -/
theorem poly_pressure (ops : List Midi.Op) (hop : ∀ op ∈ ops, 0 ≤ op.delay) (trig : Engine.Trig) (ht : trig.type ≠ .cc) (n : Nat) (hn : n < 128)
    (htn : trig.number = n) (size : Nat) :
    ∃ log, polySource (Midi.run ops) trig size = some log ∧ IsEnvelope (fun x => x) ((Midi.run (ops.filter (aboutKey n))).polyAftertouch n) size log := by
  have e : (Midi.run ops).polyAftertouch n = (Midi.run (ops.filter (aboutKey n))).polyAftertouch n := key_filter n ops _ _ rfl
  obtain ⟨log, h1, h2⟩ := linear_envelope (ops.filter (aboutKey n)) (fun op h => hop op (List.mem_filter.mp h).1) (.polyAftertouch n) (fun x => x) size
  refine ⟨log, ?_, h2⟩
  unfold polySource polyEvents
  rw [if_neg ht, htn, if_neg (by omega), Int.toNat_natCast, e]
  exact h1

/-- **C134, the channel.** The same for the pressure of the channel, for all voices. -/
theorem channel_pressure (ops : List Midi.Op) (hop : ∀ op ∈ ops, 0 ≤ op.delay) (size : Nat) :
    ∃ log, channelSource (Midi.run ops) size = some log ∧
      IsEnvelope (fun x => x) (Midi.run (ops.filter aboutChannel)).channelAftertouch size log := by
  have e : (Midi.run ops).channelAftertouch = (Midi.run (ops.filter aboutChannel)).channelAftertouch := channel_filter ops _ _ rfl
  obtain ⟨log, h1, h2⟩ := linear_envelope (ops.filter aboutChannel) (fun op h => hop op (List.mem_filter.mp h).1) .channelAftertouch (fun x => x) size
  refine ⟨log, ?_, h2⟩
  unfold channelSource
  rw [e]
  exact h1

/-- **C134, other voices.** Voices started by a controller, or by a note outside of the keyboard, are not modulated. -/
theorem no_pressure (m : Midi.State) (trig : Engine.Trig) (ht : trig.type = .cc ∨ trig.number < 0 ∨ trig.number > 127) (size : Nat) :
    ∃ log, polySource m trig size = some log ∧ ∀ i, log i = if i < size then [0] else [] := by
  unfold polySource
  split
  · exact ⟨_, rfl, fun i => rfl⟩
  · rename_i h
    have hr : trig.number < 0 ∨ trig.number > 127 := by
      rcases ht with h' | h'
      · exact absurd h' h
      · exact h'
    unfold polyEvents
    rw [if_pos hr]
    obtain ⟨log, h1, h2⟩ := linear_envelope [] (by simp) (.polyAftertouch 0) (fun x => x) size
    refine ⟨log, h1, fun i => ?_⟩
    split
    · rename_i hi
      exact h2.last [] ⟨0, 0⟩ rfl i hi (by simp)
    · rename_i hi
      exact h2.outside i (by omega)

/-- **C134, reset.** Violated: the message "reset all controllers" (121), which by its definition (MIDI RP-015) sets the pressure to 0,
leaves it as it was. -/
theorem reset_pressure_violated (c : Engine.Cfg) : ∃ s s' : Engine.E, Engine.performHdcc c s 0 121 0 true (-1) = some s' ∧
    ∃ log, channelSource s'.midi 4 = some log ∧ log 0 = [1] := by
  let s : Engine.E :=
    { vm := Engine.initVM 1 (fun _ => 1) (fun _ => 1)
      midi := Midi.run [.chanAftertouch 0 1]
      layers := fun _ => {}
      currentSwitch := none }
  refine ⟨s, Engine.resetAllControllers c s 0, by simp [Engine.performHdcc], ?_⟩
  have h : ∀ (l : List Nat) (m : Midi.State), (l.foldl (fun m cc => Midi.ccEvent m 0 cc (c.defaultCC cc)) m).channelAftertouch = m.channelAftertouch := by
    intro l
    induction l with
    | nil => intro m; rfl
    | cons a l ih => intro m; rw [List.foldl_cons, ih]; rfl
  have e : (Engine.resetAllControllers c s 0).midi.channelAftertouch = [⟨0, 1⟩] := by
    unfold Engine.resetAllControllers Engine.eachVoice Engine.eachLayer
    simp only
    rw [h]
    show (Midi.run [.chanAftertouch 0 1]).channelAftertouch = _
    decide +kernel
  unfold channelSource
  rw [e]
  refine ⟨_, rfl, ?_⟩
  decide +kernel

/-- A key is pressed harder over 4 frames while another key and controllers change: a voice of key 60 follows its key. -/
example : (polySource (Midi.run [.polyAftertouch 0 60 0, .cc 1 1 1, .polyAftertouch 2 61 1, .polyAftertouch 4 60 1, .chanAftertouch 3 1])
    { type := .noteOn, number := 60, value := 1 } 6).map (fun l => (List.range 6).map l) = some [[0], [1/4], [1/2], [3/4], [1], [1]] := by
  decide +kernel

example : (channelSource (Midi.run [.polyAftertouch 0 60 1, .chanAftertouch 2 1]) 4).map (fun l => (List.range 4).map l) =
    some [[0], [1/2], [1], [1]] := by decide +kernel

end Verif.Aftertouch
