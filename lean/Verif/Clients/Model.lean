import Mathlib.Algebra.Order.Floor.Semiring
import Mathlib.Data.Rat.Floor

/-!
Model of the two programs built on the library: the JACK client (`clients/jack_client.cpp`) and the renderer of MIDI files
(`clients/sfizz_render.cpp`), with `clients/MidiHelpers.h` and the player of MIDI files they use
(`external/fmidi/sources/fmidi/fmidi_mini.cpp`). Times are exact rational numbers of seconds. A MIDI file has one track here, and
its delays are in seconds: the merging of tracks and the tempo are not modelled. The synthesizer is seen through the calls it gets.
-/
namespace Verif.Clients

/-- The calls of the synthesizer made by the programs; the first argument is the delay inside the block. -/
inductive Call
  | noteOn (delay key velocity : Nat)
  | noteOff (delay key velocity : Nat)
  | cc (delay number value : Nat)
  | pitchWheel (delay : Nat) (pitch : Int)
  | polyAftertouch (delay key value : Nat)
  | channelAftertouch (delay value : Nat)
deriving DecidableEq, Repr

/-- `midi::status` (MidiHelpers.h:5, 16-19). -/
def status (b : Nat) : Nat := b &&& 0b11110000

/-- `midi::buildAndCenterPitch` (MidiHelpers.h:25-28). -/
def buildAndCenterPitch (first second : Nat) : Int := ((second <<< 7) + first : Nat) - 8192

/-- The switch of the JACK client over one event (jack_client.cpp:79-110). `none` is a read outside of the event. -/
def jackEvent (time : Nat) (ev : List Nat) : Option (List Call) :=
  if ev.length = 0 then some []
  else do
    let s ← ev[0]?
    let off : Option (List Call) := do
      let k ← ev[1]?
      let v ← ev[2]?
      return [.noteOff time k v]
    if status s = 0x80 then off
    else if status s = 0x90 then do
      let v ← ev[2]?
      if v = 0 then off
      else do
        let k ← ev[1]?
        return [.noteOn time k v]
    else if status s = 0xA0 then do
      let k ← ev[1]?
      let v ← ev[2]?
      return [.polyAftertouch time k v]
    else if status s = 0xB0 then do
      let n ← ev[1]?
      let v ← ev[2]?
      return [.cc time n v]
    else if status s = 0xC0 then some []
    else if status s = 0xD0 then do
      let v ← ev[1]?
      return [.channelAftertouch time v]
    else if status s = 0xE0 then do
      let a ← ev[1]?
      let b ← ev[2]?
      return [.pitchWheel time (buildAndCenterPitch a b)]
    else some []

/-- `midiCallback` of the renderer (sfizz_render.cpp:24-56), for an event that is a message. -/
def renderEvent (delay : Nat) (ev : List Nat) : Option (List Call) := do
  let s ← ev[0]?
  if status s = 0x80 then do
    let k ← ev[1]?
    let v ← ev[2]?
    return [.noteOff delay k v]
  else if status s = 0x90 then do
    let v ← ev[2]?
    let k ← ev[1]?
    if v = 0 then return [.noteOff delay k v] else return [.noteOn delay k v]
  else if status s = 0xB0 then do
    let n ← ev[1]?
    let v ← ev[2]?
    return [.cc delay n v]
  else if status s = 0xE0 then do
    let a ← ev[1]?
    let b ← ev[2]?
    return [.pitchWheel delay (buildAndCenterPitch a b)]
  else some []

/-! ### The JACK client -/

/-- What a cycle does: calls, then a block from the synthesizer, or silence. -/
inductive Action
  | call (c : Call)
  | block (frames : Nat)
  | silence (frames : Nat)
deriving DecidableEq, Repr

/-- One cycle: its length, the events of the port with their times, and whether another thread (a change of settings, a
command) holds the lock when it begins. -/
structure Cycle where
  frames : Nat
  events : List (Nat × List Nat)
  locked : Bool

/-- The loop over the events (jack_client.cpp:75-110). -/
def jackEvents : List (Nat × List Nat) → Option (List Action)
  | [] => some []
  | e :: es => do
    let c ← jackEvent e.1 e.2
    let rest ← jackEvents es
    return c.map .call ++ rest

/-- `process` (jack_client.cpp:55-117). -/
def process (c : Cycle) : Option (List Action) :=
  if c.locked then some [.silence c.frames]
  else do
    let calls ← jackEvents c.events
    return calls ++ [.block c.frames]

/-- A run of the client. -/
def jackRun : List Cycle → Option (List Action)
  | [] => some []
  | c :: cs => do
    let a ← process c
    let rest ← jackRun cs
    return a ++ rest

/-! ### The renderer -/

/-- An event of a track: a message, the end of the track, or another one (system exclusive, other meta events). -/
inductive Event
  | message (bytes : List Nat)
  | endOfTrack
  | other
deriving DecidableEq, Repr

/-- The events given by the sequencer (`fmidi_seq_track_current_event`, fmidi_mini.cpp:1322-1346, and `fmidi_seq_next_event`,
1416-1449), with their times from the beginning: up to the end of the track, which is not given. `now` is the time so far. -/
def sequence (now : ℚ) : List (ℚ × Event) → List (ℚ × Event)
  | [] => []
  | (delta, ev) :: rest =>
    if ev = .endOfTrack then []
    else (now + delta, ev) :: sequence (now + delta) rest

/-- `midiCallback` with the test of the type (sfizz_render.cpp:28-29). -/
def midiCallback (delay : Nat) : Event → Option (List Call)
  | .message b => renderEvent delay b
  | _ => some []

/-- The player: its position and the events not given yet; the next one may have been fetched already (`have_event`), which
makes no difference. -/
structure Player where
  timepos : ℚ
  pending : List (ℚ × Event)

/-- The loop of `fmidi_player_tick` (fmidi_mini.cpp:71-76). -/
def dispatch (timepos : ℚ) (delay : Nat) : List (ℚ × Event) → Option (List Call × List (ℚ × Event))
  | [] => some ([], [])
  | e :: es =>
    if timepos > e.1 then do
      let c ← midiCallback delay e.2
      let (cs, rest) ← dispatch timepos delay es
      return (c ++ cs, rest)
    else some ([], e :: es)

/-- `fmidi_player_tick` (fmidi_mini.cpp:55-87): the calls, the player, and whether it is finished. -/
def tick (increment : ℚ) (delay : Nat) (p : Player) : Option (List Call × Player × Bool) := do
  let timepos := p.timepos + increment
  let (calls, pending) ← dispatch timepos delay p.pending
  return (calls, ⟨timepos, pending⟩, pending.isEmpty)

/-- The inner loop of `main` (sfizz_render.cpp:210-211), with `n` frames of the block left. -/
def ticks (increment : ℚ) : Nat → Nat → Player → Option (List Call × Player × Bool)
  | 0, _, p => some ([], p, false)
  | n + 1, delay, p => do
    let (calls, p, finished) ← tick increment delay p
    if finished then return (calls, p, true)
    else do
      let (more, p, finished) ← ticks increment n (delay + 1) p
      return (calls ++ more, p, finished)

/-- The outer loop (sfizz_render.cpp:209-217): the calls before each block. At most `fuel` blocks; the flag says whether the loop
was left. -/
def blocks (increment : ℚ) (blockSize : Nat) : Nat → Player → Option (List (List Call) × Bool)
  | 0, _ => some ([], false)
  | fuel + 1, p => do
    let (calls, p, finished) ← ticks increment blockSize 0 p
    if finished then return ([calls], true)
    else do
      let (more, done) ← blocks increment blockSize fuel p
      return (calls :: more, done)

/-- Rendering of a track up to its last event (sfizz_render.cpp:194-217). -/
def renderTrack (rate blockSize fuel : Nat) (track : List (ℚ × Event)) : Option (List (List Call) × Bool) :=
  blocks (1 / rate) blockSize fuel ⟨0, sequence 0 track⟩

/-- The blocks after the last event (sfizz_render.cpp:219-229), when the end of the track is not used: `power k` is the mean
square of block `k`, the last one of the track being block 0. The number of blocks and whether the loop was left. -/
def tail (power : Nat → ℚ) : Nat → Nat → Nat × Bool
  | 0, _ => (0, false)
  | fuel + 1, k =>
    if power k > 1 / 10 ^ 12 then
      let (n, done) := tail power fuel (k + 1)
      (n + 1, done)
    else (0, true)

end Verif.Clients
