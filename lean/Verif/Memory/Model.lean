import Mathlib.Data.Finset.Basic
import Mathlib.Logic.Function.Basic

/-! Model of the memory of audio buffers (`Buffer.h`): a heap of blocks whose places the allocator chooses, and buffer objects pointing
into it. Undefined behaviour (an access outside a live block, a block freed twice, use of a null pointer) is `none`. The objects
themselves are named by numbers; `live` holds the names of the objects that exist. The two counters of `BufferCounter` are integers:
`fetch_add` comes before `fetch_sub` (Buffer.h:80-81), so they do not pass below zero unless their final value does. -/
namespace Verif.Memory

/-- The size of `size_t`. -/
def word : Nat := 2 ^ 64

/-- Sizes fixed at compile time (Buffer.h:114, 312-318): `elem` = `sizeof(value_type)` and `Alignment` = `per * elem`, with `per` =
`TypeAlignment`. The mask of line 182 is a remainder since `per` is a power of two. -/
structure Kind where
  elem : Nat
  per : Nat
deriving DecidableEq

def Kind.align (k : Kind) : Nat := k.per * k.elem

/-- `sizeof(value_type)` is positive, `Alignment` one of 4, 8, 16 and 32 and a multiple of it (Buffer.h:316-318). -/
structure Kind.Ok (k : Kind) : Prop where
  elem : 0 < k.elem
  align : k.align = 4 ∨ k.align = 8 ∨ k.align = 16 ∨ k.align = 32

/-- `Buffer<float>`: 4 bytes, alignment 16. -/
def floats : Kind := { elem := 4, per := 4 }

/-- A block of the heap: its address in bytes and its cells. -/
structure Block where
  base : Nat
  cells : List ℤ
deriving DecidableEq

/-- A buffer object (Buffer.h:333-338): `largerSize`, `alignedSize`, the block owned by `paddedData`, and, counted in elements from
the beginning of this block, `normalData` and `_alignedEnd`. `normalEnd` is `data + size`. -/
structure Buf where
  larger : Nat
  size : Nat
  block : Option Nat
  data : Nat
  alignedEnd : Nat
deriving DecidableEq

/-- The empty buffer (Buffer.h:132-134, 301-309). -/
def Buf.empty : Buf := { larger := 0, size := 0, block := none, data := 0, alignedEnd := 0 }

structure World where
  heap : Nat → Option Block
  fresh : Nat
  count : Int
  bytes : Int
  live : Finset Nat
  bufs : Nat → Buf

def init : World := { heap := fun _ => none, fresh := 0, count := 0, bytes := 0, live := ∅, bufs := fun _ => .empty }

/-- Set the object `x`. -/
def World.put (w : World) (x : Nat) (b : Buf) : World := { w with bufs := Function.update w.bufs x b }

/-- `std::free`; nothing for the null pointer, undefined for a block that is not there. -/
def World.free (w : World) : Option Nat → Option World
  | none => some w
  | some b => match w.heap b with
    | none => none
    | some _ => some { w with heap := Function.update w.heap b none }

/-- `BufferCounter::bufferDeleted` as called with `largerSize` (Buffer.h:84-89, 212-213). -/
def World.uncount (w : World) (k : Kind) (larger : Nat) : World :=
  if larger > 0 then { w with count := w.count - 1, bytes := w.bytes - larger * k.elem } else w

/-- Read `n` elements from `p` (a block and a place in it); undefined outside the block. -/
def World.read (w : World) : Option Nat → Nat → Nat → Option (List ℤ)
  | none, _, n => if n = 0 then some [] else none
  | some b, p, n => match w.heap b with
    | none => none
    | some blk => if p + n ≤ blk.cells.length then some ((blk.cells.drop p).take n) else none

/-- Write elements at `p`; undefined outside the block. -/
def World.write (w : World) : Option Nat → Nat → List ℤ → Option World
  | none, _, vs => if vs = [] then some w else none
  | some b, p, vs => match w.heap b with
    | none => none
    | some blk =>
      if p + vs.length ≤ blk.cells.length then
        some { w with heap := Function.update w.heap b (some { blk with cells := blk.cells.take p ++ vs ++ blk.cells.drop (p + vs.length) }) }
      else none

/-- An object comes into being, empty (Buffer.h:132-134, 333-338). -/
def World.make (w : World) (x : Nat) : World := { w.put x .empty with live := insert x w.live }

/-- `clear` (Buffer.h:210-215, 301-309). -/
def World.clear (w : World) (k : Kind) (x : Nat) : Option World := do
  let w1 := w.uncount k (w.bufs x).larger
  let w2 ← w1.free (w.bufs x).block
  return w2.put x .empty

/-- Bytes from an address to the next aligned one (Buffer.h:321-323). -/
def padding (k : Kind) (base : Nat) : Nat := (k.align - base % k.align) % k.align

/-- `resize` (Buffer.h:154-192, with `align` of 319-327); `a` is the allocator's answer: the address of the new block, or none when
memory runs out. The result of `false` is the returned value. All sums are of type `size_t`. When `align` gives a null pointer the
object is unusable, which counts as undefined here. -/
def World.resize (w : World) (k : Kind) (x n : Nat) (a : Option Nat) : Option (World × Bool) :=
  if n = 0 then (w.clear k x).map (·, true)
  else match a with
    | none => some (w, false)
    | some base => do
      let old := w.bufs x
      let temp := (n + 2 * (k.align - 1)) % word
      let w1 : World :=
        { w with
          heap := Function.update w.heap w.fresh (some { base := base, cells := List.replicate temp 0 })
          fresh := w.fresh + 1
          count := if old.larger > 0 then w.count else w.count + 1
          bytes := if old.larger > 0 then w.bytes + temp * k.elem - old.larger * k.elem else w.bytes + temp * k.elem }
      if temp < (n + padding k base) % word then none
      else do
        let data := padding k base / k.elem
        let rest := n % k.per
        let b : Buf :=
          { larger := temp
            size := n
            block := some w.fresh
            data := data
            alignedEnd := if rest ≠ 0 then data + n + k.align - rest else data + n }
        let vs ← w1.read old.block old.data (min n old.size)
        let w2 ← w1.write (some w.fresh) data vs
        let w3 ← w2.free old.block
        return (w3.put x b, true)

/-- The `memcpy` of a copy (Buffer.h:238, 261). -/
def World.copyCells (w : World) (x y : Nat) : Option World := do
  let vs ← w.read (w.bufs y).block (w.bufs y).data (w.bufs y).size
  w.write (w.bufs x).block (w.bufs x).data vs

/-- What can be done with buffers. `a` is the allocator's answer. -/
inductive Op where
  /-- `Buffer()` -/
  | make (x : Nat)
  /-- `resize(n)`, also the constructor with a size (Buffer.h:141-144) after `make` -/
  | resize (x n : Nat) (a : Option Nat)
  /-- `clear()` -/
  | clear (x : Nat)
  /-- `~Buffer()` (Buffer.h:216-220) -/
  | destroy (x : Nat)
  /-- `Buffer x(y)` (Buffer.h:235-239) -/
  | copyNew (x y : Nat) (a : Option Nat)
  /-- `Buffer x(std::move(y))` (Buffer.h:246-255) -/
  | moveNew (x y : Nat)
  /-- `x = y` (Buffer.h:257-264) -/
  | copy (x y : Nat) (a : Option Nat)
  /-- `x = std::move(y)` (Buffer.h:266-280) -/
  | move (x y : Nat)
  /-- `x[i] = v` (Buffer.h:282) -/
  | set (x i : Nat) (v : ℤ)
deriving DecidableEq

/-- One operation. When the allocator fails, `resize` returns false or throws and the object of a copy constructor does not come into
being. -/
def step (k : Kind) (w : World) : Op → Option World
  | .make x => some (w.make x)
  | .resize x n a => (w.resize k x n a).map (·.1)
  | .clear x => w.clear k x
  | .destroy x => do
    let w1 ← (w.uncount k (w.bufs x).larger).free (w.bufs x).block
    return { w1 with live := w1.live.erase x }
  | .copyNew x y a => do
    let w1 := w.make x
    let (w2, ok) ← w1.resize k x (w1.bufs y).size a
    if ok then w2.copyCells x y else return w
  | .moveNew x y =>
    let w1 := w.put x (w.bufs y)
    let w2 := w1.put y .empty
    some { w2 with live := insert x w2.live }
  | .copy x y a =>
    if x = y then some w
    else do
      let (w1, ok) ← w.resize k x (w.bufs y).size a
      if ok then w1.copyCells x y else return w1
  | .move x y =>
    if x = y then some w
    else do
      let b := w.bufs y
      let w1 := w.uncount k (w.bufs x).larger
      let w2 ← w1.free (w1.bufs x).block
      return (w2.put x b).put y .empty
  | .set x i v => w.write (w.bufs x).block ((w.bufs x).data + i) [v]

/-- A history of operations. -/
def run (k : Kind) (w : World) : List Op → Option World
  | [] => some w
  | o :: os => do
    let w1 ← step k w o
    run k w1 os

/-- What a program reads from `x`: the elements from `begin` to `end`. -/
def World.view (w : World) (x : Nat) : Option (List ℤ) := w.read (w.bufs x).block (w.bufs x).data (w.bufs x).size

end Verif.Memory
