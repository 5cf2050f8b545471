import Mathlib.Data.List.Basic

/-! Model of `src/sfizz/AudioBuffer.h`: several buffers of one size with space kept around their frames. The single buffers are those of
`Buffer.h`, which C130 (`Verif.Memory`) shows to behave as lists of values; here they are lists. Samples are whole numbers, of which only
zero is distinguished. Undefined behaviour (a null or missing buffer, a place outside a buffer) is `none`. -/
namespace Verif.AudioBuffer

/-- The parameters of the template (AudioBuffer.h:29-31): `MaxChannels`, `Alignment`, `PaddingLeft_`, `PaddingRight_`. -/
structure Kind where
  max : Nat
  align : Nat
  left : Nat
  right : Nat
deriving Repr

/-- `PaddingLeft` (AudioBuffer.h:42). -/
def Kind.padLeft (k : Kind) : Nat := k.left + (k.align - k.left % k.align) % k.align

/-- `PaddingTotal` (AudioBuffer.h:46). -/
def Kind.padTotal (k : Kind) : Nat := k.padLeft + k.right

/-- `FileAudioBuffer` (FilePool.h:51-52, Config.h:64; `defaultAlignment` is 16). -/
def files : Kind := { max := 2, align := 16, left := 64, right := 64 }

/-- `AudioBuffer<float>` (Effects.h:188-189, BufferPool.h:178). -/
def floats : Kind := { max := 32, align := 16, left := 0, right := 0 }

/-- The object (AudioBuffer.h:301-303): the array of owned buffers (null or the cells of a buffer), `numChannels`, `numFrames`. -/
structure Audio where
  bufs : List (Option (List Int))
  channels : Nat
  frames : Nat
deriving Repr, DecidableEq

/-- The empty object (AudioBuffer.h:53-55, 300-302). -/
def empty (k : Kind) : Audio := { bufs := List.replicate k.max none, channels := 0, frames := 0 }

/-- `Buffer::resize` on the cells (Buffer.h:154-192): nothing is allocated for size zero; otherwise new memory is zero and the common
cells are copied; when the allocation fails nothing changes. The second component is the value returned. -/
def resizeCells (cells : List Int) (n : Nat) (ok : Bool) : List Int × Bool :=
  if n = 0 then ([], true)
  else if ok = false then (cells, false)
  else (cells.take (min n cells.length) ++ List.replicate (n - min n cells.length) 0, true)

/-- The constructor of a buffer with a size (Buffer.h:141-144). Simplified: the allocation succeeds. -/
def newCells (n : Nat) : List Int := (resizeCells [] n true).1

/-- The loop of the constructor (AudioBuffer.h:68-69), from `buffers[0]`; undefined beyond the array. -/
def newLoop (cells : List Int) : List (Option (List Int)) → Nat → Option (List (Option (List Int)))
  | bufs, 0 => some bufs
  | [], _ + 1 => none
  | _ :: rest, c + 1 => (newLoop cells rest c).map (some cells :: ·)

/-- The constructor with sizes (AudioBuffer.h:64-70). -/
def construct (k : Kind) (c f : Nat) : Option Audio :=
  (newLoop (newCells (f + k.padTotal)) (List.replicate k.max none) c).map fun bufs => { bufs := bufs, channels := c, frames := f }

/-- The loop of `resize` that returns a truth value (AudioBuffer.h:81-84), `i` counts up, `c` channels are left; `ans i` is the
allocator's answer for channel `i`. -/
def tryLoop (n : Nat) (ans : Nat → Bool) : Nat → List (Option (List Int)) → Nat → Option (List (Option (List Int)) × Bool)
  | _, bufs, 0 => some (bufs, true)
  | _, [], _ + 1 => none
  | _, none :: _, _ + 1 => none
  | i, some b :: rest, c + 1 =>
    (tryLoop n ans (i + 1) rest c).map fun r => (some (resizeCells b n (ans i)).1 :: r.1, (resizeCells b n (ans i)).2 && r.2)

/-- `resize(newSize, std::nothrow)` (AudioBuffer.h:79-90). -/
def tryResize (k : Kind) (b : Audio) (n : Nat) (ans : Nat → Bool) : Option (Audio × Bool) :=
  (tryLoop (n + k.padTotal) ans 0 b.bufs b.channels).map fun r =>
    ({ b with bufs := r.1, frames := if r.2 then n else b.frames }, r.2)

/-- The loop of the other `resize` (AudioBuffer.h:99-100), which is left by an exception at the first failure. -/
def throwLoop (n : Nat) (ans : Nat → Bool) : Nat → List (Option (List Int)) → Nat → Option (List (Option (List Int)) × Bool)
  | _, bufs, 0 => some (bufs, true)
  | _, [], _ + 1 => none
  | _, none :: _, _ + 1 => none
  | i, some b :: rest, c + 1 =>
    if (resizeCells b n (ans i)).2 = false then some (some b :: rest, false)
    else (throwLoop n ans (i + 1) rest c).map fun r => (some (resizeCells b n (ans i)).1 :: r.1, r.2)

/-- `resize(newSize)` (AudioBuffer.h:97-103); the truth value is false when it throws. -/
def resize (k : Kind) (b : Audio) (n : Nat) (ans : Nat → Bool) : Option (Audio × Bool) :=
  (throwLoop (n + k.padTotal) ans 0 b.bufs b.channels).map fun r =>
    ({ b with bufs := r.1, frames := if r.2 then n else b.frames }, r.2)

/-- `addChannel` (AudioBuffer.h:195-199). -/
def addChannel (k : Kind) (b : Audio) : Audio :=
  if b.channels < k.max then { b with bufs := b.bufs.set b.channels (some (newCells (b.frames + k.padTotal))), channels := b.channels + 1 }
  else b

/-- `addChannels` (AudioBuffer.h:290-295). -/
def addChannels (k : Kind) (b : Audio) : Nat → Audio
  | 0 => b
  | n + 1 => addChannels k (addChannel k b) n

/-- `reset` (AudioBuffer.h:266-272). -/
def reset (b : Audio) : Audio :=
  { bufs := List.replicate b.channels none ++ b.bufs.drop b.channels, channels := 0, frames := 0 }

/-- The loop of `clear` (AudioBuffer.h:279-282): the frames and the space around them are set to zero. -/
def clearLoop (n : Nat) : List (Option (List Int)) → Nat → Option (List (Option (List Int)))
  | bufs, 0 => some bufs
  | [], _ + 1 => none
  | none :: _, _ + 1 => none
  | some b :: rest, c + 1 =>
    if b.length < n then none else (clearLoop n rest c).map (some (List.replicate n 0 ++ b.drop n) :: ·)

/-- `clear` (AudioBuffer.h:277-283). -/
def clear (k : Kind) (b : Audio) : Option Audio :=
  (clearLoop (b.frames + k.padTotal) b.bufs b.channels).map fun bufs => { b with bufs := bufs }

/-- What is left of an object that was moved from: the implicit move leaves null buffers and copies the two numbers
(AudioBuffer.h:301-303). -/
def movedFrom (b : Audio) : Audio := { b with bufs := b.bufs.map fun _ => none }

/-- Store through `getSample` (AudioBuffer.h:241-248) or a span. -/
def store (k : Kind) (b : Audio) (ch i : Nat) (v : Int) : Option Audio :=
  match b.bufs[ch]? with
  | some (some cells) => if k.padLeft + i < cells.length then some { b with bufs := b.bufs.set ch (some (cells.set (k.padLeft + i) v)) } else none
  | _ => none

/-- The values of `getSpan` (AudioBuffer.h:171-178). -/
def span (k : Kind) (b : Audio) (ch : Nat) : Option (List Int) :=
  if ch < b.channels then
    match b.bufs[ch]? with
    | some (some cells) => if k.padLeft + b.frames ≤ cells.length then some ((cells.drop k.padLeft).take b.frames) else none
    | _ => none
  else some []

/-- The values from `channelReader` to `channelReaderEnd` (AudioBuffer.h:141-163). -/
def between (k : Kind) (b : Audio) (ch : Nat) : Option (List Int) :=
  if ch < b.channels then
    match b.bufs[ch]? with
    | some (some cells) => if k.padTotal ≤ cells.length then some ((cells.drop k.padLeft).take (cells.length - k.padTotal)) else none
    | _ => none
  else some []

/-- The value at `channelReader(ch)[p]`, where `p` may be negative, as read by the interpolators around the ends of a sample. -/
def look (k : Kind) (b : Audio) (ch : Nat) (p : Int) : Option Int :=
  match b.bufs[ch]? with
  | some (some cells) => if 0 ≤ k.padLeft + p then cells[(k.padLeft + p).toNat]? else none
  | _ => none

/-- What can be done with the object; `assign` replaces it by a new one (Buffer and array are moved in). -/
inductive Op where
  | assign (c f : Nat)
  | add (c : Nat)
  | tryResize (n : Nat) (ans : Nat → Bool)
  | resize (n : Nat) (ans : Nat → Bool)
  | reset
  | clear
  | store (ch i : Nat) (v : Int)
  | moveOut

/-- One operation. -/
def step (k : Kind) (b : Audio) : Op → Option Audio
  | .assign c f => construct k c f
  | .add c => some (addChannels k b c)
  | .tryResize n ans => (tryResize k b n ans).map (·.1)
  | .resize n ans => (resize k b n ans).map (·.1)
  | .reset => some (reset b)
  | .clear => clear k b
  | .store ch i v => store k b ch i v
  | .moveOut => some (movedFrom b)

/-- A history. -/
def run (k : Kind) : Audio → List Op → Option Audio
  | b, [] => some b
  | b, o :: os => (step k b o).bind (run k · os)

end Verif.AudioBuffer
