import Verif.Clients.Model

/-!
Model of the sequencer of MIDI files that the renderer uses (/repo/external/fmidi/sources/fmidi/fmidi_mini.cpp:679-707, 1217-1449): the
tracks of a file merged into one sequence of events with their times, under the tempo that the file sets.

Simplifications. Times are exact rationals (`double` in the code). Files of formats 0 and 1: all tracks share one timing, and offsets of the
start (SMPTE) are disregarded, as in the code (fmidi_mini.cpp:1283-1284, 1310-1313). The reading of the file is in `Verif.MidiFile`.
-/
namespace Verif.Sequencer

/-- An event of a track. -/
inductive Ev
  | message (bytes : List Nat)
  /-- Meta event 0x51 of 4 bytes: microseconds per quarter note. -/
  | tempo (micro : Nat)
  /-- Meta event 0x2f or 0x3f. -/
  | endOfTrack
  /-- Another meta event. -/
  | other
  /-- An escaped event. -/
  | system
deriving DecidableEq, Repr

def Ev.isMeta : Ev → Bool
  | .tempo _ | .endOfTrack | .other => true
  | _ => false

/-- `delta_unit`: ticks per quarter note, or ticks per second (frames per second times ticks per frame). -/
inductive Division
  | quarter (n : Nat)
  | second (n : Nat)
deriving DecidableEq, Repr

/-- `fmidi_seq_track_info` (fmidi_mini.cpp:1227-1232): `next` is the event fetched and its ticks left, `rest` is what the iterator has still
to give, with the ticks from one event to the next. -/
structure Track where
  timepos : ℚ
  next : Option (ℚ × Ev) := none
  rest : List (Nat × Ev)
deriving DecidableEq

/-- `fmidi_seq` (fmidi_mini.cpp:1234-1237), with the timing that all tracks share (1217-1220). -/
structure Seq where
  division : Division
  tempo : Nat
  tracks : List Track

/-- `fmidi_delta_time` (fmidi_mini.cpp:679-691). -/
def deltaTime (d : Division) (tempo : Nat) (delta : ℚ) : ℚ :=
  match d with
  | .second n => delta / n
  | .quarter n => delta * (tempo / 1000000) / n

/-- `fmidi_time_delta` (fmidi_mini.cpp:693-705). -/
def timeDelta (d : Division) (tempo : Nat) (time : ℚ) : ℚ :=
  match d with
  | .second n => time * n
  | .quarter n => time * n / (tempo / 1000000)

/-- The tempo that a track begins with, after that of the tracks before (fmidi_mini.cpp:1303-1317): meta events at the very beginning. -/
def leadTempo (tempo : Nat) : List (Nat × Ev) → Nat
  | [] => tempo
  | (d, e) :: r =>
    if d = 0 ∧ e.isMeta then
      match e with
      | .tempo t => leadTempo t r
      | _ => leadTempo tempo r
    else tempo

/-- `fmidi_seq_new`, `fmidi_seq_rewind` (fmidi_mini.cpp:1247-1320). -/
def start (d : Division) (file : List (List (Nat × Ev))) : Seq :=
  { division := d, tempo := file.foldl leadTempo 500000, tracks := file.map (fun r => { timepos := 0, rest := r }) }

/-- `fmidi_seq_track_current_event` (fmidi_mini.cpp:1322-1346): the track afterwards; the event is its `next`. -/
def fetch (t : Track) : Track :=
  match t.next with
  | some _ => t
  | none =>
    match t.rest with
    | [] => t
    | (d, e) :: r => if e = .endOfTrack then { t with rest := r } else { t with next := some (d, e), rest := r }

/-- `fmidi_seq_next_track` (fmidi_mini.cpp:1348-1376), for tracks whose events are fetched: the number of the track and the time of its
event. `i` is the number of the first track of the list, `best` the choice so far. -/
def nearest (d : Division) (tempo : Nat) : Nat → Option (Nat × ℚ) → List Track → Option (Nat × ℚ)
  | _, best, [] => best
  | i, best, t :: ts =>
    match t.next with
    | none => nearest d tempo (i + 1) best ts
    | some p =>
      match best with
      | none => nearest d tempo (i + 1) (some (i, deltaTime d tempo p.1 + t.timepos)) ts
      | some b =>
        if deltaTime d tempo p.1 + t.timepos < b.2 then nearest d tempo (i + 1) (some (i, deltaTime d tempo p.1 + t.timepos)) ts
        else nearest d tempo (i + 1) (some b) ts

/-- `fmidi_seq_track_advance_by` (fmidi_mini.cpp:1400-1414). -/
def advance (d : Division) (tempo : Nat) (time : ℚ) (t : Track) : Track :=
  match (fetch t).next with
  | some p => { fetch t with next := some (p.1 - timeDelta d tempo time, p.2), timepos := t.timepos + time }
  | none => { fetch t with timepos := t.timepos + time }

/-- `fmidi_seq_next_event` (fmidi_mini.cpp:1416-1449): the time, the track and the event. -/
def nextEvent (s : Seq) : Option ((ℚ × Nat × Ev) × Seq) :=
  let tracks := s.tracks.map fetch
  match nearest s.division s.tempo 0 none tracks with
  | none => none
  | some (j, time) =>
    match tracks[j]? with
    | none => none
    | some trk =>
      match trk.next with
      | none => none
      | some p =>
        some ((time, j, p.2),
          { s with
            tempo := match p.2 with
              | .tempo t => t
              | _ => s.tempo
            tracks := tracks.mapIdx (fun i t =>
              if i = j then { t with timepos := time, next := none } else advance s.division s.tempo (time - trk.timepos) t) })

/-- All events, one after the other; at most `fuel`. -/
def play : Nat → Seq → List (ℚ × Nat × Ev)
  | 0, _ => []
  | fuel + 1, s =>
    match nextEvent s with
    | none => []
    | some (e, s') => e :: play fuel s'

/-- What the renderer makes of an event (sfizz_render.cpp:28-29). -/
def Ev.toClient : Ev → Clients.Event
  | .message b => .message b
  | _ => .other

/-- Rendering of a file up to its last event (sfizz_render.cpp:194-217). -/
def renderFile (rate blockSize fuel : Nat) (d : Division) (file : List (List (Nat × Ev))) : Option (List (List Clients.Call) × Bool) :=
  Clients.blocks (1 / rate) blockSize fuel ⟨0, (play fuel (start d file)).map (fun e => (e.1, e.2.2.toClient))⟩

end Verif.Sequencer
