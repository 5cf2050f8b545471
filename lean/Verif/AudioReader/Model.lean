/-!
# Reading sample files forwards and backwards

Models `src/sfizz/AudioReader.cpp` (the three readers and `reverse_frames`) and the two functions
of `src/sfizz/FilePool.cpp` which fill sample memory from a reader: `readBaseFile` (preloading)
and `streamFromFile` (background loading).

The decoding library (`external/st_audiofile`) is represented by its result: a file is its number
of channels, the frame count it *declares*, and the interleaved samples it can *deliver*; reading
`n` frames at a position delivers the samples present there, at most `n` frames.  Allocation
failures, and the decoding itself, are not modelled.
-/

namespace Verif.AudioReader

variable {α : Type}

/-- An opened audio file: what `get_channels`, `get_frame_count` answer, and what `read_f32`
delivers, interleaved frame by frame. -/
structure File (α : Type) where
  channels : Nat
  declared : Nat
  samples : List α
deriving DecidableEq, Repr

/-- `handle_.read_f32(buffer, n)` at frame position `pos`. -/
def readF32 (f : File α) (pos n : Nat) : List α :=
  (f.samples.drop (pos * f.channels)).take (n * f.channels)

/-- `std::swap(data[p], data[q])`. -/
def swapAt (data : List α) (p q : Nat) : List α :=
  match data[p]?, data[q]? with
  | some a, some b => (data.set p b).set q a
  | _, _ => data

/-- AudioReader.cpp:149-150 — the inner loop of `reverse_frames`: swap the first `c` channels of
the frames `i` and `j`. -/
def swapChannels (ch : Nat) (data : List α) (i j : Nat) : Nat → List α
  | 0 => data
  | c + 1 => swapAt (swapChannels ch data i j c) (i * ch + c) (j * ch + c)

/-- AudioReader.cpp:145-151 — the outer loop of `reverse_frames` after `k` turns. -/
def reverseLoop (ch frames : Nat) (data : List α) : Nat → List α
  | 0 => data
  | k + 1 => swapChannels ch (reverseLoop ch frames data k) k (frames - 1 - k) ch

/-- The frames of an interleaved buffer, as the cast to `AudioFrame<N>*` sees them. -/
def asFrames (ch : Nat) (data : List α) : Nat → List (List α)
  | 0 => []
  | n + 1 => data.take ch :: asFrames ch (data.drop ch) n

/-- AudioReader.cpp:130-156 — `reverse_frames`.  One and two channels use `std::reverse` over
frames, any other count the explicit loop. -/
def reverseFrames (data : List α) (frames channels : Nat) : List α :=
  if channels = 1 ∨ channels = 2 then
    (asFrames channels data frames).reverse.flatten ++ data.drop (frames * channels)
  else
    reverseLoop channels frames data (frames / 2)

/-- The three reader classes and their state.
* `forward pos`: AudioReader.cpp:94-118; `pos` is the decoder's own position.
* `reverse position`: AudioReader.cpp:163-201; `position_`.
* `noSeek buffer left`: AudioReader.cpp:208-262; `fileBuffer_` (null before the first read) and
  `fileFramesLeft_`.
* `dummy`: AudioReader.cpp:310-322, used when the file could not be opened. -/
inductive Reader (α : Type) where
  | forward (pos : Nat)
  | reverse (position : Nat)
  | noSeek (buffer : Option (List α)) (left : Nat)
  | dummy
deriving DecidableEq, Repr

/-- The result of `readNextBlock`: the returned frame count, what was written at the start of
the caller's buffer, and the reader afterwards. -/
structure Block (α : Type) where
  frames : Nat
  written : List α
  reader : Reader α
deriving DecidableEq, Repr

/-- AudioReader.cpp:111-118. -/
def readForward (f : File α) (pos n : Nat) : Block α :=
  let data := readF32 f pos n
  let got := data.length / f.channels
  { frames := if n = 0 then 0 else got, written := data, reader := .forward (pos + got) }

/-- AudioReader.cpp:184-201.  The positions used never exceed the declared count, where `seek`
is taken to succeed; a read which delivers fewer frames than asked fails the call, leaves what it
wrote in the buffer and does not move `position_`. -/
def readReverse (f : File α) (position n : Nat) : Block α :=
  let readFrames := min n position
  if readFrames = 0 then { frames := 0, written := [], reader := .reverse position }
  else
    let target := position - readFrames
    let data := readF32 f target readFrames
    if data.length / f.channels ≠ readFrames then
      { frames := 0, written := data, reader := .reverse position }
    else
      { frames := readFrames
        written := reverseFrames data readFrames f.channels
        reader := .reverse target }

/-- AudioReader.cpp:232-262. -/
def readNoSeek (f : File α) (buffer : Option (List α)) (left n : Nat) : Block α :=
  let (fileBuffer, framesLeft) :=
    match buffer with
    | some b => (b, left)
    | none =>
      let data := readF32 f 0 f.declared
      (data, data.length / f.channels)
  let readFrames := min n framesLeft
  if readFrames = 0 then
    { frames := 0, written := [], reader := .noSeek (some fileBuffer) framesLeft }
  else
    let copied := (fileBuffer.drop (f.channels * (framesLeft - readFrames))).take
      (f.channels * framesLeft - f.channels * (framesLeft - readFrames))
    { frames := readFrames
      written := reverseFrames copied readFrames f.channels
      reader := .noSeek (some fileBuffer) (framesLeft - readFrames) }

/-- The virtual call `AudioReader::readNextBlock`. -/
def readNextBlock (f : File α) : Reader α → Nat → Block α
  | .forward pos, n => readForward f pos n
  | .reverse position, n => readReverse f position n
  | .noSeek buffer left, n => readNoSeek f buffer left n
  | .dummy, _ => { frames := 0, written := [], reader := .dummy }

/-- AudioReader.cpp:361-388 — `createAudioReaderWithHandle` on a file that opened. -/
def createReader (f : File α) (reverse fastSeeking : Bool) : Reader α :=
  if !reverse then .forward 0
  else if fastSeeking then .reverse f.declared
  else .noSeek none 0

/-- What a caller collects by asking for blocks of the sizes `sizes` and keeping the frames each
call reports. -/
def collect (f : File α) : Reader α → List Nat → List α
  | _, [] => []
  | r, n :: ns =>
    let b := readNextBlock f r n
    b.written.take (b.frames * f.channels) ++ collect f b.reader ns

/-- The reader after these calls. -/
def readerAfter (f : File α) : Reader α → List Nat → Reader α
  | r, [] => r
  | r, n :: ns => readerAfter f (readNextBlock f r n).reader ns

/-! ## Filling sample memory -/

/-- Writing `written` at the start of a buffer. -/
def overwrite (buffer written : List α) : List α :=
  written.take buffer.length ++ buffer.drop written.length

/-- `simd/HelpersScalar.h:11-18` — `readInterleaved`, one of the two outputs (`side` 0 or 1). -/
def deinterleave (side : Nat) : List α → List α
  | a :: b :: rest => (if side = 0 then a else b) :: deinterleave side rest
  | _ => []

/-- FilePool.cpp:73-92 — `readBaseFile`: the channels of the preloaded data.  Both the output and
the temporary buffer start zeroed (`Buffer::resize` uses `calloc`). -/
def readBaseFile (zero : α) (f : File α) (r : Reader α) (numFrames : Nat) : List (List α) :=
  if f.channels = 1 then
    [overwrite (List.replicate numFrames zero) (readNextBlock f r numFrames).written]
  else if f.channels = 2 then
    let temp := overwrite (List.replicate (2 * numFrames) zero) (readNextBlock f r numFrames).written
    [deinterleave 0 temp, deinterleave 1 temp]
  else []

/-- FilePool.cpp:133-134 — copy `count` frames of one channel of the file block. -/
def writeChannel (ch chan : Nat) (block : List α) (output : List α) (at_ : Nat) : Nat → List α
  | 0 => output
  | i + 1 =>
    match block[i * ch + chan]? with
    | some v => (writeChannel ch chan block output at_ i).set (at_ + i) v
    | none => writeChannel ch chan block output at_ i

/-- The state of the loop of `streamFromFile`. -/
structure Streaming (α : Type) where
  output : List (List α)
  filledFrames : Nat

/-- FilePool.cpp:117-141 — the loop of `streamFromFile`.  `pos` is both frame counters, which
are always equal; `count` is `thisChunkSize` after lines 125-128.  A turn which reads nothing
ends the loop, so the test `count ≠ 0` never decides anything. -/
def streamLoop (f : File α) (chunk numFrames : Nat) (r : Reader α) (pos : Nat)
    (st : Streaming α) : Streaming α :=
  if h : pos < numFrames then
    let asked := min chunk (numFrames - pos)
    let b := readNextBlock f r asked
    if hz : b.frames = 0 then st
    else
      let eof := decide (b.frames < asked)
      let count := min b.frames asked
      let st' : Streaming α :=
        { output := st.output.mapIdx fun c o => writeChannel f.channels c b.written o pos count
          filledFrames := st.filledFrames + count }
      if hc : eof = false ∧ count ≠ 0 then streamLoop f chunk numFrames b.reader (pos + count) st'
      else st'
  else st
termination_by numFrames - pos
decreasing_by
  have hpos : 0 < count := Nat.pos_of_ne_zero hc.2
  change numFrames - (pos + count) < numFrames - pos
  omega

/-- FilePool.cpp:101-142 — `streamFromFile` with the chunk size `config::fileChunkSize` as a
parameter. -/
def streamFromFile (zero : α) (chunk : Nat) (f : File α) (r : Reader α) : Streaming α :=
  streamLoop f chunk f.declared r 0
    { output := List.replicate f.channels (List.replicate f.declared zero), filledFrames := 0 }

end Verif.AudioReader
