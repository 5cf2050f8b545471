import Verif.Sequencer.Model

/-!
Model of the reader of standard MIDI files that the renderer uses (/repo/external/fmidi/sources/fmidi/fmidi_mini.cpp:274-399, 718-734,
1475-1862), with its repairs of broken files. All line numbers are of this file.

The stream (`memstream`) is the list of the bytes that are still to be read; bytes are numbers below 256. Positions that the code remembers
are such lists. Loops have fuel; `Err.loop` is a loop that does not end. The buffer of events (`evbuf`) is a list. The kind of an error
(`fmidi_last_error`) is kept, its line is not. Not modelled: the limit of the file size, opening the file.
-/
namespace Verif.MidiFile

inductive Err
  | eof
  | format
  /-- The loop does not end. -/
  | loop
deriving DecidableEq, Repr

inductive Kind
  | message
  | escape
  | metaEvent
deriving DecidableEq, Repr

/-- `fmidi_event`: ticks from the event before, type and data. -/
structure Raw where
  delta : Nat
  kind : Kind
  data : List Nat
deriving DecidableEq, Repr

/-- The result of reading an event: the events appended to the buffer, the error if there is one, and the position. Without error the event
returned is the last one appended. -/
structure Step where
  added : List Raw
  fail : Option Err
  rest : List Nat
deriving DecidableEq, Repr

/-- The loop of `memstream::doreadvlq` (384-399); `n` bytes may follow. -/
def vlqLoop : Nat → Nat → List Nat → Except Err (Nat × List Nat)
  | 0, _, _ => .error .format
  | _ + 1, _, [] => .error .eof
  | n + 1, acc, b :: r => if b < 128 then .ok (acc * 128 + b, r) else vlqLoop n (acc * 128 + b % 128) r

/-- `memstream::readvlq` (361-371). After an error the position is unchanged. -/
def readVlq (l : List Nat) : Except Err (Nat × List Nat) := vlqLoop 4 0 l

/-- `memstream::read` (302-315). -/
def readN (n : Nat) (l : List Nat) : Option (List Nat × List Nat) := if n ≤ l.length then some (l.take n, l.drop n) else none

/-- `memstream::readintBE` (348-359). -/
def readBE (n : Nat) (l : List Nat) : Option (Nat × List Nat) := (readN n l).map fun p => (p.1.foldl (fun a b => a * 256 + b) 0, p.2)

/-- `fmidi_message_sizeof` (718-734). -/
def messageSize (id : Nat) : Nat :=
  if id < 128 then 0
  else if id / 16 ≠ 15 then [3, 3, 3, 3, 2, 2, 3].getD (id / 16 % 8) 0
  else [0, 2, 3, 2, 1, 1, 1, 0, 1, 1, 1, 1, 1, 1, 1, 1].getD (id % 16) 0

/-- The repeated ends of a track (1489-1498). -/
def repeats : Nat → List Nat → Option (List Nat)
  | 0, _ => none
  | f + 1, l =>
    match readVlq l with
    | .error _ => some l
    | .ok (_, r) =>
      match r with
      | a :: e :: r' =>
        if a = 0xff ∧ (e = 0x2f ∨ e = 0x3f) then
          match r' with
          | z :: r'' => if z = 0 then repeats f r'' else some r'
          | [] => some r'
        else some l
      | _ => some l

/-- `fmidi_read_meta_event` (1475-1517). -/
def readMeta (delta : Nat) (l : List Nat) : Step :=
  match l with
  | [] => ⟨[], some .eof, []⟩
  | id :: r =>
    if id = 0x2f ∨ id = 0x3f then
      match r with
      | z :: r' =>
        if z = 0 then
          match repeats (r'.length + 1) r' with
          | none => ⟨[], some .loop, r'⟩
          | some q => ⟨[⟨delta, .metaEvent, [id]⟩], none, q⟩
        else ⟨[⟨delta, .metaEvent, [id]⟩], none, r⟩
      | [] => ⟨[⟨delta, .metaEvent, [id]⟩], none, r⟩
    else
      match readVlq r with
      | .error e => ⟨[], some e, r⟩
      | .ok (n, r') =>
        match readN n r' with
        | none => ⟨[], some .eof, r'⟩
        | some (d, r'') => ⟨[⟨delta, .metaEvent, id :: d⟩], none, r''⟩

/-- `fmidi_read_escape_event` (1519-1536). -/
def readEscape (delta : Nat) (l : List Nat) : Step :=
  match readVlq l with
  | .error e => ⟨[], some e, l⟩
  | .ok (n, r) =>
    match readN n r with
    | none => ⟨[], some .eof, r⟩
    | some (d, r') => ⟨[⟨delta, .escape, d⟩], none, r'⟩

/-- The parts that follow (1592-1631): `buf` is the message so far, not ended. -/
def sysexMore : Nat → Nat → List Raw → List Nat → List Nat → Step
  | 0, _, added, _, l => ⟨added, some .loop, l⟩
  | f + 1, delta, added, buf, l =>
    match readVlq l with
    | .ok (_, id :: r) =>
      if id = 0xf7 then
        match readVlq r with
        | .error e => ⟨added, some e, r⟩
        | .ok (n, r') =>
          match readN n r' with
          | none => ⟨added, some .eof, r'⟩
          | some (part, r'') =>
            if 0xf7 ∈ part then
              if 0xf7 ∈ part.dropLast then ⟨added, some .format, r''⟩
              else ⟨added ++ [⟨delta, .message, buf ++ part⟩], none, r''⟩
            else sysexMore f delta added (buf ++ part) r''
      else ⟨added ++ [⟨delta, .message, buf ++ [0xf7]⟩], none, l⟩
    | _ => ⟨added ++ [⟨delta, .message, buf ++ [0xf7]⟩], none, l⟩

/-- The messages inside of one part (1556-1590); `part` is what is left of it. -/
def sysexFirst : Nat → Nat → List Raw → List Nat → List Nat → Step
  | 0, _, added, _, l => ⟨added, some .loop, l⟩
  | f + 1, delta, added, part, l =>
    if 0xf7 ∈ part then
      match part.drop ((part.takeWhile (· ≠ 0xf7)).length + 1) with
      | [] => ⟨added ++ [⟨delta, .message, 0xf0 :: part.takeWhile (· ≠ 0xf7) ++ [0xf7]⟩], none, l⟩
      | b :: q =>
        if b = 0xf0 then sysexFirst f delta (added ++ [⟨delta, .message, 0xf0 :: part.takeWhile (· ≠ 0xf7) ++ [0xf7]⟩]) q l
        else ⟨added ++ [⟨delta, .message, 0xf0 :: part.takeWhile (· ≠ 0xf7) ++ [0xf7]⟩], none, l⟩
    else sysexMore (l.length + 1) delta added (0xf0 :: part) l

/-- `fmidi_read_sysex_event` (1538-1632). -/
def readSysex (delta : Nat) (l : List Nat) : Step :=
  match readVlq l with
  | .error e => ⟨[], some e, l⟩
  | .ok (n, r) =>
    match readN n r with
    | none => ⟨[], some .eof, r⟩
    | some (part, r') => sysexFirst (part.length + 1) delta [] part r'

/-- `fmidi_read_message_event` (1634-1651). -/
def readMessage (delta id : Nat) (l : List Nat) : Step :=
  if messageSize id = 0 then ⟨[], some .format, l⟩
  else
    match readN (messageSize id - 1) l with
    | none => ⟨[], some .eof, l⟩
    | some (d, r) => ⟨[⟨delta, .message, id :: d⟩], none, r⟩

/-- `fmidi_read_event` (1653-1687): also the running status afterwards. -/
def readEvent (run : Nat) (l : List Nat) : Step × Nat :=
  match readVlq l with
  | .error e => (⟨[], some e, l⟩, run)
  | .ok (_, []) => (⟨[], some .eof, []⟩, run)
  | .ok (delta, id :: r) =>
    if id = 0xff then (readMeta delta r, run)
    else if id = 0xf7 then (readEscape delta r, run)
    else if id = 0xf0 then (readSysex delta r, run)
    else if 128 ≤ id then (readMessage delta id r, id)
    else (readMessage delta run (id :: r), run)

/-- Is it an end of a track (1757-1758)? -/
def isEnd (e : Raw) : Bool := e.kind = .metaEvent ∧ (e.data.head? = some 0x2f ∨ e.data.head? = some 0x3f)

/-- How the events of a track end. -/
inductive Out
  /-- The file is refused. -/
  | fatal (e : Err)
  /-- After the end of the track. -/
  | ended (events : List Raw) (run : Nat) (rest : List Nat)
  /-- Before an event that cannot be read. -/
  | stopped (e : Err) (events : List Raw) (run : Nat) (before : List Nat)
deriving DecidableEq, Repr

/-- The position lies beyond that of the next track, when the length of the track is good (1761-1763, 1796-1798). -/
def overlap (next : Option (List Nat)) (rest : List Nat) : Bool :=
  match next with
  | none => false
  | some n => rest.length < n.length

/-- The events of a track (1755-1764). -/
def events (next : Option (List Nat)) : Nat → Nat → List Raw → List Nat → Out
  | 0, _, _, _ => .fatal .loop
  | f + 1, run, acc, l =>
    match (readEvent run l).1.fail with
    | some e => .stopped e (acc ++ (readEvent run l).1.added) (readEvent run l).2 l
    | none =>
      if overlap next (readEvent run l).1.rest then .fatal .format
      else if ((readEvent run l).1.added.getLast?.map isEnd).getD false then
        .ended (acc ++ (readEvent run l).1.added) (readEvent run l).2 (readEvent run l).1.rest
      else events next f (readEvent run l).2 (acc ++ (readEvent run l).1.added) (readEvent run l).1.rest

/-- The events after the end of a track (1787-1800): the events, the running status, the position, and whether it is the last track. -/
def afterEnd (next : Option (List Nat)) : Nat → Nat → List Raw → Bool → List Nat → Except Err (List Raw × Nat × List Nat × Bool)
  | 0, _, _, _, _ => .error .loop
  | f + 1, run, acc, last, l =>
    if l.take 2 = [0x00, 0xff] then
      match (readEvent run l).1.fail with
      | some .eof => afterEnd next f (readEvent run l).2 (acc ++ (readEvent run l).1.added) true (readEvent run l).1.rest
      | some e => .error e
      | none =>
        if overlap next (readEvent run l).1.rest then .error .format
        else afterEnd next f (readEvent run l).2 (acc ++ (readEvent run l).1.added) last (readEvent run l).1.rest
    else .ok (acc, run, l, last)

/-- `MTrk` -/
def trackMagic : List Nat := [0x4d, 0x54, 0x72, 0x6b]

/-- `MThd` -/
def fileMagic : List Nat := [0x4d, 0x54, 0x68, 0x64]

/-- What follows a track of `len` bytes, if the length is good (1746-1749). -/
def nextTrack (len : Nat) (body : List Nat) : Option (List Nat) :=
  match readN len body with
  | none => none
  | some (_, n) => if n = [] ∨ n.take 4 = trackMagic then some n else none

/-- One track (1746-1812): its events, and with what the next one is read, or `none` if there is none. -/
def readTrack (run len : Nat) (body : List Nat) : Except Err (List Raw × Option (Nat × List Nat)) :=
  match events (nextTrack len body) (body.length + 1) run [] body with
  | .fatal e => .error e
  | .stopped .eof evs _ _ => .ok (evs, none)
  | .stopped .format evs run' before =>
    match readVlq before with
    | .error .format =>
      match nextTrack len body with
      | none => .ok (evs, none)
      | some n => .ok (evs, some (run', n))
    | _ => .error .format
  | .stopped .loop _ _ _ => .error .loop
  | .ended evs run' rest =>
    match afterEnd (nextTrack len body) (rest.length + 1) run' evs false rest with
    | .error e => .error e
    | .ok (evs', run'', rest', last) => .ok (evs', if last then none else some (run'', (nextTrack len body).getD rest'))

/-- `fmidi_smf_read_contents` (1710-1814): the events of the tracks; `n` tracks are still promised. -/
def readTracks : Nat → Nat → List Nat → Except Err (List (List Raw))
  | 0, _, _ => .ok []
  | n + 1, run, l =>
    match readN 4 l with
    | none => .ok []
    | some (magic, r) =>
      if magic = trackMagic then
        match readBE 4 r with
        | none => .error .eof
        | some (len, body) =>
          match readTrack run len body with
          | .error e => .error e
          | .ok (evs, none) => .ok [evs]
          | .ok (evs, some (run', next)) =>
            match readTracks n run' next with
            | .error e => .error e
            | .ok ts => .ok (evs :: ts)
      else if r = [] then .ok []
      else .error .format

/-- What is after the magic of the file (1826-1831). -/
def findHead : List Nat → Option (List Nat)
  | [] => none
  | b :: r => if (b :: r).take 4 = fileMagic then some ((b :: r).drop 4) else findHead r

/-- `fmidi_smf`. -/
structure Smf where
  format : Nat
  unit : Nat
  tracks : List (List Raw)
deriving DecidableEq, Repr

/-- `fmidi_smf_mem_read` (1816-1862). -/
def readFile (l : List Nat) : Except Err Smf :=
  match findHead l with
  | none => .error .format
  | some l =>
    match readBE 4 l with
    | none => .error .eof
    | some (headerLen, l) =>
      match readBE 2 l with
      | none => .error .eof
      | some (format, l) =>
        match readBE 2 l with
        | none => .error .eof
        | some (ntracks, l) =>
          match readBE 2 l with
          | none => .error .eof
          | some (unit, l) =>
            if ntracks < 1 ∨ headerLen < 6 then .error .format
            else
              match readN (headerLen - 6) l with
              | none => .error .eof
              | some (_, l) =>
                match readTracks ntracks 0 l with
                | .error e => .error e
                | .ok ts => .ok ⟨format, unit, ts⟩

/-- The event as the sequencer sees it (1322-1346, 1432-1443). -/
def Raw.toEv (e : Raw) : Sequencer.Ev :=
  match e.kind, e.data with
  | .metaEvent, [0x51, a, b, c] => .tempo (a * 65536 + b * 256 + c)
  | .metaEvent, d => if d.head? = some 0x2f ∨ d.head? = some 0x3f then .endOfTrack else .other
  | .message, d => .message d
  | .escape, _ => .system

/-- `delta_unit` (679-705): with the highest bit the negated frames per second and the ticks per frame. -/
def division (unit : Nat) : Sequencer.Division :=
  if 32768 ≤ unit then .second ((256 - unit / 256) * (unit % 256)) else .quarter unit

/-- `main` (/repo/clients/sfizz_render.cpp:169-173, 203-217): the file read, then its events as `Sequencer.renderFile` gives them to the synthesizer.
Formats 0 and 1. -/
def renderBytes (rate bs fuel : Nat) (l : List Nat) : Except Err (Option (List (List Clients.Call) × Bool)) :=
  match readFile l with
  | .error e => .error e
  | .ok smf => .ok (Sequencer.renderFile rate bs fuel (division smf.unit) (smf.tracks.map fun t => t.map fun e => (e.delta, e.toEv)))

end Verif.MidiFile
