/-!
Model of the OSC message encoder and decoder (`src/sfizz/Messaging.cpp`, `src/sfizz_message.h`).

Memory is a list of bytes. `uint32_t` quantities are `Nat`s reduced modulo `2^32` wherever the C++ type
truncates. An access outside of a buffer is the distinct outcome `none`.
Floats are bit patterns. The `double -> float -> double` conversion done by `appendDouble(float d)` is a
parameter (`conv`), since only the fact that it goes through 32 bits matters here.
-/
namespace Verif.Osc

abbrev Byte := BitVec 8

/-- Reduction of a value stored in a `uint32_t`. -/
def u32 (n : Nat) : Nat := n % 2 ^ 32

/-- `paddingSize` (Messaging.cpp:20-24). -/
def paddingSize (count align : Nat) : Nat :=
  (align - (count &&& (align - 1))) &&& (align - 1)

/-- The active member of `sfizz_arg_t` (sfizz_message.h:43-51). Reading a member that is not the active one is
outside of this model. C strings are the bytes before the terminating NUL. -/
inductive Arg where
  | i (v : BitVec 32)
  | h (v : BitVec 64)
  | f (v : BitVec 32)
  | d (v : BitVec 64)
  | s (v : List Byte)
  | b (v : List Byte)
  | m (a b c d : Byte)
  | none
  deriving DecidableEq, Repr

/-- Conversions between `double` and `float`: the implicit narrowing at the call of `appendDouble` (Messaging.cpp:127,192)
and the widening in its body (Messaging.cpp:195). -/
structure Conv where
  narrow : BitVec 64 → BitVec 32
  widen : BitVec 32 → BitVec 64

/-! ### Encoder -/

/-- `OSCWriter` (Messaging.cpp:27-42): destination memory, write position, remaining capacity. -/
structure Writer where
  mem : List Byte
  pos : Nat
  cap : Nat

/-- `memcpy(dstBuffer_, src, written)`. -/
def poke (mem : List Byte) (pos : Nat) (bytes : List Byte) : List Byte :=
  mem.take pos ++ bytes ++ mem.drop (pos + bytes.length)

/-- `appendBytes` (Messaging.cpp:155-162): the source has at least `count` bytes, `count` being a `uint32_t`. -/
def appendBytes (w : Writer) (src : List Byte) (count : Nat) : Writer × Nat :=
  let written := min w.cap count
  ({ mem := poke w.mem w.pos (src.take written), pos := w.pos + written, cap := w.cap - written }, count)

/-- `appendZeros` (Messaging.cpp:164-171). -/
def appendZeros (w : Writer) (count : Nat) : Writer × Nat :=
  let written := min w.cap count
  ({ mem := poke w.mem w.pos (List.replicate written 0), pos := w.pos + written, cap := w.cap - written }, count)

/-- The bytes built by `appendInteger` (Messaging.cpp:175-181), `size` being `sizeof(U)`. -/
def integerBytes (size : Nat) (u : Nat) : List Byte :=
  (List.range size).map fun i => BitVec.ofNat 8 ((u >>> (8 * (size - 1 - i))) &&& 0xff)

/-- `appendInteger` (Messaging.cpp:173-183). -/
def appendInteger (w : Writer) (size : Nat) (u : Nat) : Writer × Nat :=
  appendBytes w (integerBytes size u) size

/-- The string case shared by path and string arguments: the characters with their NUL, then the padding.
`len` is reduced where it is passed as `uint32_t` (Messaging.cpp:97-99 and 132-134). -/
def appendString (w : Writer) (msglen : Nat) (s : List Byte) : Writer × Nat :=
  let r1 := appendBytes w (s ++ [0]) (u32 (s.length + 1))
  let r2 := appendZeros r1.1 (paddingSize (u32 (s.length + 1)) 4)
  (r2.1, u32 (u32 (msglen + r1.2) + r2.2))

/-- One iteration of the argument loop (Messaging.cpp:109-149). `none`: the `default` label, `return 0`.
A signature character that does not match the active member is not modelled (`none` as well; excluded by the
hypotheses of the theorems). -/
def writeArg (conv : Conv) (w : Writer) (msglen : Nat) (c : Char) (a : Arg) : Option (Writer × Nat) :=
  if c = 'i' ∨ c = 'c' ∨ c = 'r' then
    match a with
    | .i v => let r := appendInteger w 4 v.toNat; some (r.1, u32 (msglen + r.2))
    | _ => none
  else if c = 'm' then
    match a with
    | .m x y z t => let r := appendBytes w [x, y, z, t] 4; some (r.1, u32 (msglen + r.2))
    | _ => none
  else if c = 'h' then
    match a with
    | .h v => let r := appendInteger w 8 v.toNat; some (r.1, u32 (msglen + r.2))
    | _ => none
  else if c = 'f' then
    match a with
    | .f v => let r := appendInteger w 4 v.toNat; some (r.1, u32 (msglen + r.2))
    | _ => none
  else if c = 'd' then
    match a with
    | .d v => let r := appendInteger w 8 (conv.widen (conv.narrow v)).toNat; some (r.1, u32 (msglen + r.2))
    | _ => none
  else if c = 's' ∨ c = 'S' then
    match a with
    | .s v => some (appendString w msglen v)
    | _ => none
  else if c = 'b' then
    match a with
    | .b v =>
      let size := u32 v.length
      let r0 := appendInteger w 4 size
      let r1 := appendBytes r0.1 v size
      let r2 := appendZeros r1.1 (paddingSize size 4)
      some (r2.1, u32 (u32 (u32 (msglen + r0.2) + r1.2) + r2.2))
    | _ => none
  else if c = 'T' ∨ c = 'F' ∨ c = 'N' ∨ c = 'I' then some (w, msglen)
  else none

/-- The argument loop (Messaging.cpp:108-150). The second component is the return value. -/
def writeArgs (conv : Conv) : Writer → Nat → List Char → List Arg → Writer × Nat
  | w, msglen, c :: sig, a :: args =>
    match writeArg conv w msglen c a with
    | none => (w, 0)
    | some (w', n) => writeArgs conv w' n sig args
  | w, msglen, _, _ => (w, msglen)

/-- The byte of a signature character. -/
def charByte (c : Char) : Byte := BitVec.ofNat 8 c.toNat

/-- `writeMessage` (Messaging.cpp:92-153). -/
def writeMessage (conv : Conv) (w : Writer) (path : List Byte) (sig : List Char) (args : List Arg) : Writer × Nat :=
  let r0 := appendString w 0 path
  let r1 := appendBytes r0.1 [charByte ','] 1
  let r2 := appendBytes r1.1 (sig.map charByte ++ [0]) (u32 (sig.length + 1))
  let r3 := appendZeros r2.1 (paddingSize (u32 (sig.length + 2)) 4)
  writeArgs conv r3.1 (u32 (u32 (u32 (r0.2 + r1.2) + r2.2) + r3.2)) sig args

/-- `sfizz_prepare_message` (Messaging.cpp:65-72) on a memory `mem` whose first `capacity` bytes are the caller's
buffer: the memory afterwards, and the returned size. -/
def prepareMessage (conv : Conv) (mem : List Byte) (capacity : Nat)
    (path : List Byte) (sig : List Char) (args : List Arg) : List Byte × Nat :=
  let r := writeMessage conv { mem := mem, pos := 0, cap := capacity } path sig args
  (r.1.mem, r.2)

/-! ### Decoder -/

/-- A decoded argument. Strings and blobs are pointers into the source buffer, here offsets. -/
inductive OutArg where
  | i (v : BitVec 32)
  | h (v : BitVec 64)
  | f (v : BitVec 32)
  | d (v : BitVec 64)
  | s (off : Nat)
  | b (off size : Nat)
  | m (a b c d : Byte)
  | none
  deriving DecidableEq, Repr

/-- `OSCReader` (Messaging.cpp:44-62): read position and remaining capacity in the source buffer, the source buffer,
and position, remaining capacity and start address of the allocation buffer; `allocSize` is its real size. -/
structure Reader where
  src : List Byte
  pos : Nat
  cap : Nat
  allocAddr : Nat
  allocSize : Nat
  allocPos : Nat
  allocCap : Nat

/-- Outcome of `extractMessage`: return 0, return -1, or a return value with offsets of the path, the signature
(after its comma), the length of the latter and the arguments. -/
inductive Result where
  | invalid
  | noSpace
  | ok (ret : Nat) (path sig siglen : Nat) (args : List OutArg)
  deriving DecidableEq, Repr

/-- `strnlen(str, n)` at offset `pos`; `none` on a read outside of the buffer. -/
def strnlen (src : List Byte) (pos : Nat) : Nat → Option Nat
  | 0 => some 0
  | n + 1 => match src[pos]? with
    | none => none
    | some c => if c = 0 then some 0 else (strnlen src (pos + 1) n).map (· + 1)

/-- `extractString` (Messaging.cpp:321-335). Outer option: out of bounds read; inner: `return false`.
On success: the new reader, offset of the string, its length. -/
def extractString (r : Reader) : Option (Option (Reader × Nat × Nat)) :=
  match strnlen r.src r.pos r.cap with
  | none => none
  | some len =>
    if len = r.cap then some none
    else
      let padlen := u32 (u32 (len + 1) + paddingSize (u32 (len + 1)) 4)
      if padlen > r.cap then some none
      else some (some ({ r with pos := r.pos + padlen, cap := r.cap - padlen }, r.pos, len))

/-- The loop of `extractInteger` (Messaging.cpp:342-345), on `size` bytes from `pos`; `bits` is the width of `U`. -/
def readInteger (src : List Byte) (bits : Nat) : Nat → Nat → Nat → Option Nat
  | _, 0, acc => some acc
  | pos, n + 1, acc => match src[pos]? with
    | none => none
    | some c => readInteger src bits (pos + 1) n (((acc <<< 8) ||| c.toNat) % 2 ^ bits)

/-- `extractInteger` (Messaging.cpp:337-350) for a `size` byte type. -/
def extractInteger (r : Reader) (size : Nat) : Option (Option (Reader × Nat)) :=
  if r.cap < size then some none
  else match readInteger r.src (8 * size) r.pos size 0 with
    | none => none
    | some v => some (some ({ r with pos := r.pos + size, cap := r.cap - size }, v))

/-- `allocate<T>(count)` (Messaging.cpp:309-319), `align` and `sz` being those of `T`. The result is the offset of the
allocated block in the allocation buffer; `none` is the null pointer. -/
def allocate (r : Reader) (align sz count : Nat) : Option (Reader × Nat) :=
  let pad := paddingSize (r.allocAddr + r.allocPos) align
  let size := u32 (count * sz)
  if r.allocCap < pad + size then none
  else some ({ r with allocPos := r.allocPos + (pad + size), allocCap := r.allocCap - (pad + size) },
             r.allocPos + pad)

/-- Outcome of one iteration of the argument loop. -/
inductive ArgStep where
  | fail
  | noSpace
  | next (r : Reader) (a : OutArg)

/-- One iteration of the argument loop (Messaging.cpp:242-303), on the signature byte `c`. -/
def readArg (r : Reader) (c : Byte) : Option ArgStep :=
  if c = charByte 'i' ∨ c = charByte 'c' ∨ c = charByte 'r' then
    match extractInteger r 4 with
    | none => none
    | some none => some .fail
    | some (some (r', v)) => some (.next r' (.i (BitVec.ofNat 32 v)))
  else if c = charByte 'm' then
    if r.cap < 4 then some .fail
    else match r.src[r.pos]?, r.src[r.pos + 1]?, r.src[r.pos + 2]?, r.src[r.pos + 3]? with
      | some x, some y, some z, some t => some (.next { r with pos := r.pos + 4, cap := r.cap - 4 } (.m x y z t))
      | _, _, _, _ => none
  else if c = charByte 'h' then
    match extractInteger r 8 with
    | none => none
    | some none => some .fail
    | some (some (r', v)) => some (.next r' (.h (BitVec.ofNat 64 v)))
  else if c = charByte 'f' then
    match extractInteger r 4 with
    | none => none
    | some none => some .fail
    | some (some (r', v)) => some (.next r' (.f (BitVec.ofNat 32 v)))
  else if c = charByte 'd' then
    match extractInteger r 8 with
    | none => none
    | some none => some .fail
    | some (some (r', v)) => some (.next r' (.d (BitVec.ofNat 64 v)))
  else if c = charByte 's' ∨ c = charByte 'S' then
    match extractString r with
    | none => none
    | some none => some .fail
    | some (some (r', off, _)) => some (.next r' (.s off))
  else if c = charByte 'b' then
    match allocate r 8 16 1 with
    | none => some .noSpace
    | some (r1, off) =>
      -- writes to `*blob`
      if off + 16 > r1.allocSize then none
      else match extractInteger r1 4 with
        | none => none
        | some none => some .fail
        | some (some (r2, len)) =>
          let padlen := u32 (len + paddingSize len 4)
          if r2.cap < padlen then some .fail
          else some (.next { r2 with pos := r2.pos + padlen, cap := r2.cap - padlen } (.b r2.pos len))
  else if c = charByte 'T' ∨ c = charByte 'F' ∨ c = charByte 'N' ∨ c = charByte 'I' then
    some (.next r .none)
  else some .fail

/-- Outcome of the argument loop. -/
inductive LoopResult where
  | fail
  | noSpace
  | done (r : Reader) (args : List OutArg)

/-- The argument loop (Messaging.cpp:241-304): `n` signature characters left, `argOff` the offset of `args[i]`
in the allocation buffer, `acc` the arguments so far. Writing `args[i]` outside of the allocation buffer is `none`;
tags without data do not write. -/
def readArgs : Nat → Reader → Nat → Nat → List OutArg → Option LoopResult
  | 0, r, _, _, acc => some (.done r acc)
  | n + 1, r, sigPos, argOff, acc =>
    match r.src[sigPos]? with
    | none => none
    | some c =>
      match readArg r c with
      | none => none
      | some .fail => some .fail
      | some .noSpace => some .noSpace
      | some (.next r' a) =>
        if a ≠ .none ∧ argOff + 8 > r.allocSize then none
        else readArgs n r' (sigPos + 1) (argOff + 8) (acc ++ [a])

/-- `extractMessage` (Messaging.cpp:212-307). The returned `ptrdiff_t` is converted to `int32_t`; the model returns the
difference itself, and the theorems bound it. -/
def extractMessage (r : Reader) : Option Result :=
  match extractString r with
  | none => none
  | some none => some .invalid
  | some (some (r1, pathOff, _)) =>
    match extractString r1 with
    | none => none
    | some none => some .invalid
    | some (some (r2, sigOff, siglen)) =>
      match r2.src[sigOff]? with
      | none => none
      | some c =>
        if c ≠ charByte ',' then some .invalid
        else
          match allocate r2 8 8 (siglen - 1) with
          | none => some .noSpace
          | some (r3, argsOff) =>
            match readArgs (siglen - 1) r3 (sigOff + 1) argsOff [] with
            | none => none
            | some .fail => some .invalid
            | some .noSpace => some .noSpace
            | some (.done r4 args) => some (.ok (r4.pos - r.pos) pathOff (sigOff + 1) (siglen - 1) args)

/-- `sfizz_extract_message` (Messaging.cpp:74-83): the source buffer holds exactly the given bytes, the allocation
buffer has `argsCapacity` bytes and starts at address `argsAddr`. -/
def extract (src : List Byte) (argsAddr argsCapacity : Nat) : Option Result :=
  extractMessage { src := src, pos := 0, cap := src.length, allocAddr := argsAddr, allocSize := argsCapacity,
                   allocPos := 0, allocCap := argsCapacity }

end Verif.Osc
