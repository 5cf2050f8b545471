/-!
# Sample metadata

Models `src/sfizz/FileMetadata.cpp`: the chunk walkers `openFlac` (180-220), `openRiff` (222-244) and
`openAiff` (246-282), `open` (131-165), `readRiffData` (318-330), `extractRiffInstrument` (343-401),
`extractAiffInstrument` (403-504), the Surge and u-he wavetable chunks (555-598), over both byte
sources: a file through C stdio (636-654) and a memory block (686-754); and the part of
`getReaderInformation` (FilePool.cpp:246-281) that uses the result.

Numbers are `Nat`, with the wrap-around of 32-bit expressions written out.  The `clm` chunk
(decimal text) is not modelled.
-/

namespace Verif.Metadata

/-- The outcome of a call: a value, a reported failure, undefined behaviour, or (for the loops, which
are given fuel) no outcome yet. -/
inductive Res (α : Type) where
  | ok (a : α)
  | fail
  | bad
  | stuck
deriving DecidableEq, Repr

def Res.map {α β : Type} (g : α → β) : Res α → Res β
  | .ok a => .ok (g a)
  | .fail => .fail
  | .bad => .bad
  | .stuck => .stuck

inductive Kind where
  | file | memory
deriving DecidableEq, Repr

structure Src where
  kind : Kind
  bytes : List UInt8
deriving DecidableEq, Repr

def Src.size (s : Src) : Nat := s.bytes.length

/-- `n` bytes from position `p`. -/
def slice (b : List UInt8) (p n : Nat) : List UInt8 := (b.drop p).take n

/-- `doRead(ptr, size, 1) == 1` and the bytes read; FileMetadata.cpp:636-639 (`fread`: an element of
size zero is never read) and 686-695 (memory: division by zero for size zero; the subtraction wraps
when the position is past the end). -/
def readOne (s : Src) (pos size : Nat) : Res (List UInt8 × Nat) :=
  match s.kind with
  | .file =>
    if size = 0 then .fail
    else if pos + size ≤ s.size then .ok (slice s.bytes pos size, pos + size) else .fail
  | .memory =>
    if size = 0 then .bad
    else if s.size < pos then .bad
    else if pos + size ≤ s.size then .ok (slice s.bytes pos size, pos + size) else .fail

/-- `doRead(ptr, 1, n)`: as many of `n` bytes as there are. -/
def readUpTo (s : Src) (pos n : Nat) : Res (List UInt8) :=
  match s.kind with
  | .file => .ok (slice s.bytes pos n)
  | .memory => if s.size < pos then .bad else .ok (slice s.bytes pos n)

/-- `doSeek` to an absolute or relative position that comes out at `target`: `fseek` may go past the
end (641-644), the memory source refuses (697-744). -/
def seek (s : Src) (target : Nat) : Res Nat :=
  match s.kind with
  | .file => .ok target
  | .memory => if target ≤ s.size then .ok target else .fail

/-- FileMetadata.cpp:33-36 -/
def u32le (b : List UInt8) : Nat :=
  (b.getD 0 0).toNat + 256 * (b.getD 1 0).toNat + 65536 * (b.getD 2 0).toNat
    + 16777216 * (b.getD 3 0).toNat

/-- FileMetadata.cpp:38-41 -/
def u32be (b : List UInt8) : Nat :=
  16777216 * (b.getD 0 0).toNat + 65536 * (b.getD 1 0).toNat + 256 * (b.getD 2 0).toNat
    + (b.getD 3 0).toNat

/-- FileMetadata.cpp:50-53 -/
def u16be (b : List UInt8) : Nat := 256 * (b.getD 0 0).toNat + (b.getD 1 0).toNat

/-- FileMetadata.h:20-25 (the index is the position in the list). -/
structure Chunk where
  offset : Nat
  id : List UInt8
  length : Nat
deriving DecidableEq, Repr

/-- The argument of the relative seek at 239 and 277: `riffChunkSize + (riffChunkSize & 1)` in 32
bits. -/
def padded (size : Nat) : Nat := (size + size % 2) % 4294967296

/-- The loops of `openRiff` (231-241) and `openAiff` (269-279), which differ in the byte order. -/
def walk (s : Src) (num : List UInt8 → Nat) : Nat → Nat → List Chunk → Res (List Chunk)
  | 0, _, _ => .stuck
  | fuel + 1, pos, acc =>
    match readOne s pos 4 with
    | .bad => .bad
    | .stuck => .stuck
    | .fail => .ok acc
    | .ok (id, p1) =>
      match readOne s p1 4 with
      | .bad => .bad
      | .stuck => .stuck
      | .fail => .ok acc
      | .ok (sizeBytes, p2) =>
        let size := num sizeBytes
        match seek s (p2 + padded size) with
        | .ok p3 => walk s num fuel p3 (acc ++ [{ offset := p2, id := id, length := size }])
        | .fail => .fail
        | .bad => .bad
        | .stuck => .stuck

def ascii (t : String) : List UInt8 := t.toList.map fun c => UInt8.ofNat c.toNat

/-- FileMetadata.cpp:222-244 -/
def openRiff (s : Src) (fuel : Nat) : Res (List Chunk) :=
  match seek s 12 with
  | .ok p => walk s u32le fuel p []
  | .fail => .fail
  | .bad => .bad
  | .stuck => .stuck

/-- FileMetadata.cpp:246-282 -/
def openAiff (s : Src) (fuel : Nat) : Res (List Chunk) :=
  match readOne s 0 4 with
  | .ok (formId, p1) =>
    if formId ≠ ascii "FORM" then .fail else
    match readOne s p1 4 with
    | .ok (_, p2) =>
      match readOne s p2 4 with
      | .ok (aiffId, p3) =>
        if aiffId ≠ ascii "AIFF" ∧ aiffId ≠ ascii "AIFC" then .fail
        else walk s u32be fuel p3 []
      | .fail => .fail | .bad => .bad | .stuck => .stuck
    | .fail => .fail | .bad => .bad | .stuck => .stuck
  | .fail => .fail | .bad => .bad | .stuck => .stuck

/-- The test of 202-204 in a FLAC application block: `riff`, a chunk name, a chunk size. -/
def flacRiff (s : Src) (pos blockSize : Nat) : Res Chunk :=
  match readOne s pos 4 with
  | .ok (blockId, p1) =>
    if blockId ≠ ascii "riff" then .fail else
    match readOne s p1 4 with
    | .ok (riffId, p2) =>
      match readOne s p2 4 with
      | .ok (sizeBytes, p3) =>
        -- `blockSize - 12` in unsigned 32-bit arithmetic
        if u32le sizeBytes ≤ (blockSize + 4294967296 - 12) % 4294967296
        then .ok { offset := p3, id := riffId, length := u32le sizeBytes }
        else .fail
      | .fail => .fail | .bad => .bad | .stuck => .stuck
    | .fail => .fail | .bad => .bad | .stuck => .stuck
  | .fail => .fail | .bad => .bad | .stuck => .stuck

/-- FileMetadata.cpp:191-192, 188 — the fields of a block header. -/
def flacType (h : List UInt8) : Nat := u32be h / 16777216 % 128
def flacSize (h : List UInt8) : Nat := u32be h % 16777216
def flacLast (h : List UInt8) : Nat := u32be h / 2147483648 % 2

/-- FileMetadata.cpp:187-217 — the loop of `openFlac`. -/
def walkFlac (s : Src) : Nat → Nat → List Chunk → Res (List Chunk)
  | 0, _, _ => .stuck
  | fuel + 1, pos, acc =>
    match readOne s pos 4 with
    | .ok (h, p1) =>
      match (if flacType h = 2 then flacRiff s p1 (flacSize h) else .fail) with
      | .bad => .bad
      | .stuck => .stuck
      | found =>
        let acc' := match found with
          | .ok c => acc ++ [c]
          | _ => acc
        match seek s (p1 + flacSize h) with
        | .ok p2 => if flacLast h = 1 then .ok acc' else walkFlac s fuel p2 acc'
        | .fail => .fail
        | .bad => .bad
        | .stuck => .stuck
    | .fail => .fail
    | .bad => .bad
    | .stuck => .stuck

/-- FileMetadata.cpp:180-220 -/
def openFlac (s : Src) (fuel : Nat) : Res (List Chunk) :=
  match seek s 4 with
  | .ok p => walkFlac s fuel p []
  | .fail => .fail
  | .bad => .bad
  | .stuck => .stuck

inductive ChunkType where
  | none | riff | aiff
deriving DecidableEq, Repr

/-- FileMetadata.cpp:131-165 — `open`.  A file can be opened (620-634 not failing is assumed); an
empty memory block cannot (677-684). -/
def openReader (s : Src) (fuel : Nat) : Res (ChunkType × List Chunk) :=
  if s.kind = .memory ∧ s.bytes = [] then .fail else
  let magic := slice s.bytes 0 4
  if magic = ascii "fLaC" then
    (openFlac s fuel).map fun cs => (.riff, cs)
  else if magic = ascii "RIFF" then
    (openRiff s fuel).map fun cs => (.riff, cs)
  else if magic = ascii "FORM" then
    (openAiff s fuel).map fun cs => (.aiff, cs)
  else .ok (.none, [])

/-- FileMetadata.cpp:304-311 -/
def chunkById (cs : List Chunk) (id : List UInt8) : Option Chunk := cs.find? fun c => c.id == id

/-- FileMetadata.cpp:318-330, for a chunk that exists. -/
def readRiffData (s : Src) (c : Chunk) (count : Nat) : Res (List UInt8) :=
  let count := if count < c.length then count else c.length
  match seek s c.offset with
  | .ok p => readUpTo s p count
  | .fail => .ok []
  | .bad => .bad
  | .stuck => .stuck

inductive LoopMode where
  | none | forward | backward | alternating
deriving DecidableEq, Repr

structure Loop where
  mode : LoopMode
  start : Nat
  stop : Nat
  count : Nat
deriving DecidableEq, Repr

/-- FileMetadata.h:41-53; `basenote` … `keyHi` as the stored byte. -/
structure Instrument where
  gain : Nat
  basenote : Nat
  detune : Nat
  velocityLo : Nat
  velocityHi : Nat
  keyLo : Nat
  keyHi : Nat
  loops : List Loop
deriving DecidableEq, Repr

/-- FileMetadata.cpp:358-363 — `extractU32`; reading outside the local array of 420 bytes is `none`
(never happens: `Props.lean`). -/
def extractU32 (data : List UInt8) (offset : Nat) : Option Nat :=
  if offset + 4 > 420 then none
  else if offset + 4 > data.length then some 0
  else some (u32le (slice data offset 4))

/-- FileMetadata.cpp:377-398 — one loop of the `smpl` chunk. -/
def smplLoop (data : List UInt8) (i : Nat) : Option Loop := do
  let loopOffset := 0x2c - 8 + i * 24
  let mode ← extractU32 data (loopOffset + 0x04)
  let start ← extractU32 data (loopOffset + 0x08)
  let stop ← extractU32 data (loopOffset + 0x0c)
  let count ← extractU32 data (loopOffset + 0x14)
  pure {
    mode := match mode with
      | 0 => .forward
      | 1 => .alternating
      | 2 => .backward
      | _ => .none
    start := start
    stop := (stop + 1) % 4294967296
    count := count }

/-- FileMetadata.cpp:352-400, on the bytes of the chunk. -/
def smplInstrument (data : List UInt8) : Option Instrument := do
  let basenote ← extractU32 data (0x14 - 8)
  let fraction ← extractU32 data (0x18 - 8)
  let num ← extractU32 data (0x24 - 8)
  let loops ← (List.range (min 16 num)).mapM (smplLoop data)
  pure {
    gain := 1
    basenote := basenote % 256
    -- `lround(x · 100 / 2³²)`, exact in double precision
    detune := (fraction * 100 + 2147483648) / 4294967296
    velocityLo := 0, velocityHi := 127, keyLo := 0, keyHi := 127
    loops := loops }

/-- FileMetadata.cpp:343-401 -/
def extractRiff (s : Src) (t : ChunkType) (cs : List Chunk) : Res Instrument :=
  if t ≠ .riff then .fail else
  match chunkById cs (ascii "smpl") with
  | none => .fail
  | some c =>
    match readRiffData s c 420 with
    | .ok data =>
      match smplInstrument data with
      | some ins => .ok ins
      | none => .bad
    | .fail => .fail | .bad => .bad | .stuck => .stuck

/-- `markers[id] = position`, as an association list with the newest entry first. -/
abbrev Markers := List (Nat × Nat)

/-- FileMetadata.cpp:430-446 — the marker loop; `left` markers remain. -/
def readMarkers (s : Src) : Nat → Nat → Markers → Res Markers
  | 0, _, acc => .ok acc
  | left + 1, pos, acc =>
    match readOne s pos 2 with
    | .ok (idb, p1) =>
      match readOne s p1 4 with
      | .ok (posb, p2) =>
        match readOne s p2 1 with
        | .ok (sizeb, p3) =>
          let size := (sizeb.getD 0 0).toNat
          match readOne s p3 size with
          | .ok (_, p4) =>
            -- a pad byte after names of even length, except after the last marker
            if left ≠ 0 ∧ size % 2 = 0 then
              match seek s (p4 + 1) with
              | .ok p5 => readMarkers s left p5 ((u16be idb, u32be posb) :: acc)
              | .fail => .fail | .bad => .bad | .stuck => .stuck
            else readMarkers s left p4 ((u16be idb, u32be posb) :: acc)
          | .fail => .fail | .bad => .bad | .stuck => .stuck
        | .fail => .fail | .bad => .bad | .stuck => .stuck
      | .fail => .fail | .bad => .bad | .stuck => .stuck
    | .fail => .fail | .bad => .bad | .stuck => .stuck

def lookupMarker (m : Markers) (id : Nat) : Nat := (m.lookup id).getD 0

/-- FileMetadata.cpp:459-499 — the loops of an `INST` chunk: sustain, then release. -/
def instLoops (ins : List UInt8) (m : Markers) : List Nat → List Loop
  | [] => []
  | i :: rest =>
    let o := 8 + i * 6
    let mode : LoopMode := match u16be (slice ins o 2) with
      | 1 => .forward
      | 2 => .backward
      | _ => .none
    if mode = .none then []
    else
      { mode := mode, start := lookupMarker m (u16be (slice ins (o + 2) 2)),
        stop := lookupMarker m (u16be (slice ins (o + 4) 2)), count := 0 } :: instLoops ins m rest

/-- FileMetadata.cpp:449-503 -/
def instInstrument (ins : List UInt8) (m : Markers) : Instrument :=
  let byte := fun i => (ins.getD i 0).toNat
  { gain := 256 * byte 6 + byte 7
    basenote := byte 0
    detune := byte 1
    velocityLo := byte 4
    velocityHi := byte 5
    keyLo := byte 2
    keyHi := byte 3
    loops := instLoops ins m [0, 1] }

/-- FileMetadata.cpp:421-447 — the markers of the file. -/
def markersOf (s : Src) (cs : List Chunk) : Res Markers :=
  match chunkById cs (ascii "MARK") with
  | none => .ok []
  | some c =>
    match seek s c.offset with
    | .ok p =>
      match readOne s p 2 with
      | .ok (n, p1) => readMarkers s (u16be n) p1 []
      | .fail => .fail | .bad => .bad | .stuck => .stuck
    | .fail => .fail | .bad => .bad | .stuck => .stuck

/-- FileMetadata.cpp:403-504 -/
def extractAiff (s : Src) (t : ChunkType) (cs : List Chunk) : Res Instrument :=
  if t ≠ .aiff then .fail else
  match chunkById cs (ascii "INST") with
  | none => .fail
  | some c =>
    match readRiffData s c 20 with
    | .ok ins =>
      if ins.length ≠ 20 then .fail else
      (markersOf s cs).map fun m => instInstrument ins m
    | .fail => .fail | .bad => .bad | .stuck => .stuck

/-- FileMetadata.cpp:332-341 -/
def extractInstrument (s : Src) (t : ChunkType) (cs : List Chunk) : Res Instrument :=
  match extractRiff s t cs with
  | .fail => extractAiff s t cs
  | r => r

/-- FilePool.cpp:251-271 — what the engine keeps: the root key and the loop.  `frames`: the length
of the audio (at least 1). -/
structure Information where
  last : Nat
  rootKey : Nat
  loop : Option (Nat × Nat)
deriving DecidableEq, Repr

def information (frames : Nat) (forward : Bool) (ins : Option Instrument) : Information :=
  match ins with
  | none => { last := frames - 1, rootKey := 0, loop := none }
  | some ins =>
    { last := frames - 1
      rootKey := min ins.basenote 127
      loop :=
        if forward then
          match ins.loops with
          | [] => none
          | l :: _ => some (l.start, min (frames - 1) ((l.stop + 4294967296 - 1) % 4294967296))
        else none }

/-- Enough fuel for any loop over a file (`Props.lean`). -/
def enough (s : Src) : Nat := s.size + 1

end Verif.Metadata
