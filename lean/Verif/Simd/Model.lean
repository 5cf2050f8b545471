import Mathlib.Algebra.Order.Ring.Rat
import Mathlib.Algebra.Order.Field.Basic

/-!
Model of the buffer operations (`src/sfizz/simd/HelpersSSE.cpp`, `simd/HelpersScalar.h`, `simd/Common.h`).

Addresses are counted in floats; pointers to floats are assumed to be aligned for floats, as the language requires. The memory
holds a number at each address that belongs to one of the buffers and nothing elsewhere: accessing another address gives `none`,
and so does `_mm_load_ps`/`_mm_store_ps` at an address that is not a multiple of four (of 16 bytes). Numbers are exact.
-/
namespace Verif.Simd

/-- The memory: `none` outside of the buffers. -/
abbrev Mem := Int → Option ℚ

/-- Write one number; the address has to belong to a buffer. -/
def write (m : Mem) (p : Int) (x : ℚ) : Option Mem :=
  if (m p).isSome then some (Function.update m p (some x)) else none

/-- The content of a vector register, lowest lane first. -/
structure V4 where
  a : ℚ
  b : ℚ
  c : ℚ
  d : ℚ
  deriving DecidableEq

/-- `_mm_set1_ps` -/
def set1 (x : ℚ) : V4 := ⟨x, x, x, x⟩

/-- Lane-wise operations: `_mm_add_ps`, `_mm_sub_ps`, `_mm_mul_ps`, ... -/
def V4.zip (f : ℚ → ℚ → ℚ) (x y : V4) : V4 := ⟨f x.a y.a, f x.b y.b, f x.c y.c, f x.d y.d⟩

/-- `_mm_slli_si128(x, 4)`: lanes move up by one, the lowest is zero. -/
def V4.up (x : V4) : V4 := ⟨0, x.a, x.b, x.c⟩

/-- `_mm_shuffle_ps(x, x, _MM_SHUFFLE(3, 3, 3, 3))` -/
def V4.last (x : V4) : V4 := set1 x.d

/-- `_mm_load_ps` -/
def load4 (m : Mem) (p : Int) : Option V4 :=
  if p % 4 ≠ 0 then none
  else do
    let a ← m p
    let b ← m (p + 1)
    let c ← m (p + 2)
    let d ← m (p + 3)
    return ⟨a, b, c, d⟩

/-- `_mm_store_ps` -/
def store4 (m : Mem) (p : Int) (v : V4) : Option Mem :=
  if p % 4 ≠ 0 then none
  else do
    let m ← write m p v.a
    let m ← write m (p + 1) v.b
    let m ← write m (p + 2) v.c
    write m (p + 3) v.d

/-- `prevAligned<16>` (Common.h:18-22). -/
def prevAligned (p : Int) : Int := p - p % 4

/-- `unaligned<16>` (Common.h:24-34): one of the pointers is not aligned. -/
def unaligned (ps : List Int) : Bool := ps.any (fun p => decide (p % 4 ≠ 0))

/-- A `while` loop; `none` if the body faults or `fuel` turns are not enough. -/
def loop {S : Type*} (cond : S → Bool) (body : S → Option S) : Nat → S → Option S
  | 0, _ => none
  | fuel + 1, s => if cond s then (body s).bind (loop cond body fuel) else some s

/-! ### Operations that work element by element

`f xs y` is the new content of an element whose old content is `y`, with `xs` the elements of the inputs. -/

/-- One turn of a scalar loop at element `k`. -/
def scalarStep (ins : List Int) (out : Int) (f : List ℚ → ℚ → ℚ) (s : Mem × Nat) : Option (Mem × Nat) := do
  let xs ← ins.mapM (fun p => s.1 (p + s.2))
  let y ← s.1 (out + s.2)
  let m ← write s.1 (out + s.2) (f xs y)
  return (m, s.2 + 1)

/-- One turn of a vector loop. -/
def vectorStep (ins : List Int) (out : Int) (f : List ℚ → ℚ → ℚ) (s : Mem × Nat) : Option (Mem × Nat) := do
  let xs ← ins.mapM (fun p => load4 s.1 (p + s.2))
  let y ← load4 s.1 (out + s.2)
  let m ← store4 s.1 (out + s.2) ⟨f (xs.map (·.a)) y.a, f (xs.map (·.b)) y.b, f (xs.map (·.c)) y.c, f (xs.map (·.d)) y.d⟩
  return (m, s.2 + 4)

/-- The shape of the vectorized functions (for instance HelpersSSE.cpp:85-103): scalar until the pointers in `checked` are aligned,
vectors, then scalar for the rest. `ref` is the pointer compared with the end. -/
def elementwise (checked ins : List Int) (out ref : Int) (f : List ℚ → ℚ → ℚ) (size : Nat) (m : Mem) : Option Mem := do
  let lastAligned := prevAligned (ref + size)
  let s ← loop (fun s => unaligned (checked.map (· + (s.2 : Int))) && decide (ref + s.2 < lastAligned)) (scalarStep ins out f) (size + 1) (m, 0)
  let s ← loop (fun s => decide (ref + s.2 < lastAligned)) (vectorStep ins out f) (size + 1) s
  let s ← loop (fun s => decide (ref + s.2 < ref + size)) (scalarStep ins out f) (size + 1) s
  return s.1

/-- The shape of the scalar versions (for instance HelpersScalar.h:30-36). -/
def elementwiseScalar (ins : List Int) (out : Int) (f : List ℚ → ℚ → ℚ) (size : Nat) (m : Mem) : Option Mem := do
  let s ← loop (fun s => decide (s.2 < size)) (scalarStep ins out f) (size + 1) (m, 0)
  return s.1

/-- The first and second input of an element. -/
def x0 (xs : List ℚ) : ℚ := xs.getD 0 0
/-- The second input of an element. -/
def x1 (xs : List ℚ) : ℚ := xs.getD 1 0

/-- `clampAll` of one element (HelpersScalar.h:214-215). -/
def clamp1 (low high x : ℚ) : ℚ :=
  let above := if x > high then high else x
  if above < low then low else above

/-- `gain1SSE` (HelpersSSE.cpp:85-103). -/
def gain1SSE (gain : ℚ) (input output : Int) := elementwise [input, output] [input] output output (fun xs _ => gain * x0 xs)
/-- `gainSSE` (HelpersSSE.cpp:105-122). -/
def gainSSE (gain input output : Int) := elementwise [input, output, gain] [gain, input] output output (fun xs _ => x0 xs * x1 xs)
/-- `divideSSE` (HelpersSSE.cpp:124-141). -/
def divideSSE (input divisor output : Int) := elementwise [input, output] [input, divisor] output output (fun xs _ => x0 xs / x1 xs)
/-- `multiplyAddSSE` (HelpersSSE.cpp:143-162). -/
def multiplyAddSSE (gain input output : Int) := elementwise [input, output] [gain, input] output output (fun xs y => y + x0 xs * x1 xs)
/-- `multiplyAdd1SSE` (HelpersSSE.cpp:164-184). -/
def multiplyAdd1SSE (gain : ℚ) (input output : Int) := elementwise [input, output] [input] output output (fun xs y => y + gain * x0 xs)
/-- `multiplyMulSSE` (HelpersSSE.cpp:186-205). -/
def multiplyMulSSE (gain input output : Int) := elementwise [input, output] [gain, input] output output (fun xs y => y * (x0 xs * x1 xs))
/-- `multiplyMul1SSE` (HelpersSSE.cpp:207-227). -/
def multiplyMul1SSE (gain : ℚ) (input output : Int) := elementwise [input, output] [input] output output (fun xs y => y * (gain * x0 xs))
/-- `addSSE` (HelpersSSE.cpp:287-304). -/
def addSSE (input output : Int) := elementwise [input, output] [input] output output (fun xs y => y + x0 xs)
/-- `add1SSE` (HelpersSSE.cpp:306-324). -/
def add1SSE (value : ℚ) (output : Int) := elementwise [output] [] output output (fun _ y => y + value)
/-- `subtractSSE` (HelpersSSE.cpp:326-343). -/
def subtractSSE (input output : Int) := elementwise [input, output] [input] output output (fun xs y => y - x0 xs)
/-- `subtract1SSE` (HelpersSSE.cpp:345-363). -/
def subtract1SSE (value : ℚ) (output : Int) := elementwise [output] [] output output (fun _ y => y - value)
/-- `copySSE` (HelpersSSE.cpp:365-382): the input decides about the end. -/
def copySSE (input output : Int) := elementwise [input, output] [input] output input (fun xs _ => x0 xs)
/-- `clampAllSSE` (HelpersSSE.cpp:519-548); `_mm_max_ps(_mm_min_ps(x, high), low)` is the same for numbers. -/
def clampAllSSE (input : Int) (low high : ℚ) := elementwise [input] [] input input (fun _ y => clamp1 low high y)

/-- `gain1Scalar` (HelpersScalar.h:30-36). -/
def gain1Scalar (gain : ℚ) (input output : Int) := elementwiseScalar [input] output (fun xs _ => gain * x0 xs)
/-- `gainScalar` (HelpersScalar.h:38-44). -/
def gainScalar (gain input output : Int) := elementwiseScalar [gain, input] output (fun xs _ => x0 xs * x1 xs)
/-- `divideScalar` (HelpersScalar.h:46-52). -/
def divideScalar (input divisor output : Int) := elementwiseScalar [input, divisor] output (fun xs _ => x0 xs / x1 xs)
/-- `multiplyAddScalar` (HelpersScalar.h:54-60). -/
def multiplyAddScalar (gain input output : Int) := elementwiseScalar [gain, input] output (fun xs y => y + x0 xs * x1 xs)
/-- `multiplyAdd1Scalar` (HelpersScalar.h:62-68). -/
def multiplyAdd1Scalar (gain : ℚ) (input output : Int) := elementwiseScalar [input] output (fun xs y => y + gain * x0 xs)
/-- `multiplyMulScalar` (HelpersScalar.h:70-76). -/
def multiplyMulScalar (gain input output : Int) := elementwiseScalar [gain, input] output (fun xs y => y * (x0 xs * x1 xs))
/-- `multiplyMul1Scalar` (HelpersScalar.h:78-84). -/
def multiplyMul1Scalar (gain : ℚ) (input output : Int) := elementwiseScalar [input] output (fun xs y => y * (gain * x0 xs))
/-- `addScalar` (HelpersScalar.h:108-114). -/
def addScalar (input output : Int) := elementwiseScalar [input] output (fun xs y => y + x0 xs)
/-- `add1Scalar` (HelpersScalar.h:116-122). -/
def add1Scalar (value : ℚ) (output : Int) := elementwiseScalar [] output (fun _ y => y + value)
/-- `subtractScalar` (HelpersScalar.h:124-130). -/
def subtractScalar (input output : Int) := elementwiseScalar [input] output (fun xs y => y - x0 xs)
/-- `subtract1Scalar` (HelpersScalar.h:132-138). -/
def subtract1Scalar (value : ℚ) (output : Int) := elementwiseScalar [] output (fun _ y => y - value)
/-- `copyScalar` (HelpersScalar.h:140-144), with `std::copy` going forward. -/
def copyScalar (input output : Int) := elementwiseScalar [input] output (fun xs _ => x0 xs)
/-- `clampAllScalar` (HelpersScalar.h:206-218). -/
def clampAllScalar (input : Int) (low high : ℚ) := elementwiseScalar [] input (fun _ y => clamp1 low high y)

/-! ### Ramps -/

/-- One turn of a scalar ramp. -/
def rampStep (out : Int) (next : ℚ → ℚ) (s : Mem × Nat × ℚ) : Option (Mem × Nat × ℚ) := do
  let m ← write s.1 (out + s.2.1) s.2.2
  return (m, s.2.1 + 1, next s.2.2)

/-- One turn of a vector ramp: `step4` holds the four multiples (or powers) of the step. -/
def rampVector (out : Int) (op : ℚ → ℚ → ℚ) (step4 : V4) (s : Mem × Nat × V4) : Option (Mem × Nat × V4) := do
  let v := V4.zip op s.2.2 step4
  let m ← store4 s.1 (out + s.2.1) v
  return (m, s.2.1 + 4, v.last)

/-- The shape of both ramps (HelpersSSE.cpp:229-285): `op` is addition or multiplication, `inv` its inverse. -/
def rampSSE (op inv : ℚ → ℚ → ℚ) (step4 : V4) (out : Int) (start step : ℚ) (size : Nat) (m : Mem) : Option (Mem × ℚ) := do
  let lastAligned := prevAligned (out + size)
  let s ← loop (fun s => unaligned [out + (s.2.1 : Int)] && decide (out + s.2.1 < lastAligned)) (rampStep out (op · step)) (size + 1) (m, 0, start)
  let t ← loop (fun t => decide (out + t.2.1 < lastAligned)) (rampVector out op step4) (size + 1) (s.1, s.2.1, set1 (inv s.2.2 step))
  let s ← loop (fun s => decide (out + s.2.1 < out + size)) (rampStep out (op · step)) (size + 1) (t.1, t.2.1, op t.2.2.a step)
  return (s.1, s.2.2)

/-- `linearRampSSE` (HelpersSSE.cpp:229-256). -/
def linearRampSSE (out : Int) (start step : ℚ) :=
  rampSSE (· + ·) (· - ·) ⟨step, step + step, step + step + step, step + step + step + step⟩ out start step
/-- `multiplicativeRampSSE` (HelpersSSE.cpp:258-285). The quotient by a zero step is not a number: `none`. -/
def multiplicativeRampSSE (out : Int) (start step : ℚ) (size : Nat) (m : Mem) : Option (Mem × ℚ) :=
  if step = 0 then none
  else rampSSE (· * ·) (· / ·) ⟨step, step * step, step * step * step, step * step * step * step⟩ out start step size m

/-- `linearRampScalar`, `multiplicativeRampScalar` (HelpersScalar.h:86-106). -/
def rampScalar (op : ℚ → ℚ → ℚ) (out : Int) (start step : ℚ) (size : Nat) (m : Mem) : Option (Mem × ℚ) := do
  let s ← loop (fun s => decide (s.2.1 < size)) (rampStep out (op · step)) (size + 1) (m, 0, start)
  return (s.1, s.2.2)

/-! ### Running sums and differences -/

/-- One turn of a scalar running sum (HelpersSSE.cpp:464-465). -/
def cumsumStep (input out : Int) (s : Mem × Nat) : Option (Mem × Nat) := do
  let y ← s.1 (out + s.2 - 1)
  let x ← s.1 (input + s.2)
  let m ← write s.1 (out + s.2) (y + x)
  return (m, s.2 + 1)

/-- `_mm_shuffle_ps(_mm_setzero_ps(), x, _MM_SHUFFLE(1, 0, 0, 0))` (HelpersSSE.cpp:472). -/
def V4.up2 (x : V4) : V4 := ⟨0, 0, x.a, x.b⟩

/-- One turn of the vector running sum (HelpersSSE.cpp:469-477). -/
def cumsumVector (input out : Int) (s : Mem × Nat × V4) : Option (Mem × Nat × V4) := do
  let off ← load4 s.1 (input + s.2.1)
  let off := V4.zip (· + ·) off off.up
  let off := V4.zip (· + ·) off off.up2
  let v := V4.zip (· + ·) s.2.2 off
  let m ← store4 s.1 (out + s.2.1) v
  return (m, s.2.1 + 4, v.last)

/-- `cumsumSSE` (HelpersSSE.cpp:453-484). -/
def cumsumSSE (input out : Int) (size : Nat) (m : Mem) : Option Mem :=
  if size = 0 then some m
  else do
    let x ← m input
    let m ← write m out x
    let lastAligned := prevAligned (out + size)
    let s ← loop (fun s => unaligned [input + (s.2 : Int), out + (s.2 : Int)] && decide (out + s.2 < lastAligned)) (cumsumStep input out) (size + 1) (m, 1)
    let y ← s.1 (out + s.2 - 1)
    let t ← loop (fun t => decide (out + t.2.1 < lastAligned)) (cumsumVector input out) (size + 1) (s.1, s.2, set1 y)
    let s ← loop (fun s => decide (out + s.2 < out + size)) (cumsumStep input out) (size + 1) (t.1, t.2.1)
    return s.1

/-- `cumsumScalar` (HelpersScalar.h:176-189). -/
def cumsumScalar (input out : Int) (size : Nat) (m : Mem) : Option Mem :=
  if size = 0 then some m
  else do
    let x ← m input
    let m ← write m out x
    let s ← loop (fun s => decide (s.2 < size)) (cumsumStep input out) (size + 1) (m, 1)
    return s.1

/-- One turn of a scalar difference (HelpersSSE.cpp:497-498). -/
def diffStep (input out : Int) (s : Mem × Nat) : Option (Mem × Nat) := do
  let x ← s.1 (input + s.2)
  let y ← s.1 (input + s.2 - 1)
  let m ← write s.1 (out + s.2) (x - y)
  return (m, s.2 + 1)

/-- One turn of the vector difference (HelpersSSE.cpp:502-510). -/
def diffVector (input out : Int) (s : Mem × Nat × V4) : Option (Mem × Nat × V4) := do
  let x ← load4 s.1 (input + s.2.1)
  let v := V4.zip (· - ·) x s.2.2
  let v := V4.zip (· - ·) v v.up
  let m ← store4 s.1 (out + s.2.1) v
  return (m, s.2.1 + 4, x.last)

/-- `diffSSE` (HelpersSSE.cpp:486-517). -/
def diffSSE (input out : Int) (size : Nat) (m : Mem) : Option Mem :=
  if size = 0 then some m
  else do
    let x ← m input
    let m ← write m out x
    let lastAligned := prevAligned (out + size)
    let s ← loop (fun s => unaligned [input + (s.2 : Int), out + (s.2 : Int)] && decide (out + s.2 < lastAligned)) (diffStep input out) (size + 1) (m, 1)
    let y ← s.1 (input + s.2 - 1)
    let t ← loop (fun t => decide (out + t.2.1 < lastAligned)) (diffVector input out) (size + 1) (s.1, s.2, set1 y)
    let s ← loop (fun s => decide (out + s.2 < out + size)) (diffStep input out) (size + 1) (t.1, t.2.1)
    return s.1

/-- `diffScalar` (HelpersScalar.h:191-204). -/
def diffScalar (input out : Int) (size : Nat) (m : Mem) : Option Mem :=
  if size = 0 then some m
  else do
    let x ← m input
    let m ← write m out x
    let s ← loop (fun s => decide (s.2 < size)) (diffStep input out) (size + 1) (m, 1)
    return s.1

/-! ### Sums and tests -/

/-- One turn of a scalar sum of `g` of the elements. -/
def sumStep (g : ℚ → ℚ) (input : Int) (m : Mem) (s : Nat × ℚ) : Option (Nat × ℚ) := do
  let x ← m (input + s.1)
  return (s.1 + 1, s.2 + g x)

/-- One turn of a vector sum. -/
def sumVector (g : ℚ → ℚ) (input : Int) (m : Mem) (s : Nat × V4) : Option (Nat × V4) := do
  let x ← load4 m (input + s.1)
  return (s.1 + 4, V4.zip (fun acc x => acc + g x) s.2 x)

/-- The sums of `meanSSE` and `sumSquaresSSE` (HelpersSSE.cpp:384-451). -/
def sumSSE (g : ℚ → ℚ) (input : Int) (size : Nat) (m : Mem) : Option ℚ := do
  let lastAligned := prevAligned (input + size)
  let s ← loop (fun s => unaligned [input + (s.1 : Int)] && decide (input + s.1 < lastAligned)) (sumStep g input m) (size + 1) (0, 0)
  let t ← loop (fun t => decide (input + t.1 < lastAligned)) (sumVector g input m) (size + 1) (s.1, set1 0)
  let s ← loop (fun s => decide (input + s.1 < input + size)) (sumStep g input m) (size + 1) (t.1, s.2 + t.2.a + t.2.b + t.2.c + t.2.d)
  return s.2

/-- `meanSSE` (HelpersSSE.cpp:384-414). -/
def meanSSE (input : Int) (size : Nat) (m : Mem) : Option ℚ :=
  if size = 0 then some 0 else (sumSSE id input size m).map (· / size)

/-- `sumSquaresSSE` (HelpersSSE.cpp:416-451). -/
def sumSquaresSSE (input : Int) (size : Nat) (m : Mem) : Option ℚ :=
  if size = 0 then some 0 else sumSSE (fun x => x * x) input size m

/-- One turn of the scalar range test: the answer so far; the loop is left at the first element outside. -/
def withinStep (low high : ℚ) (input : Int) (m : Mem) (s : Nat × Bool) : Option (Nat × Bool) := do
  let x ← m (input + s.1)
  return if x < low ∨ x > high then (s.1, false) else (s.1 + 1, true)

/-- One turn of the vector range test (HelpersSSE.cpp:571-578). -/
def withinVector (low high : ℚ) (input : Int) (m : Mem) (s : Nat × Bool) : Option (Nat × Bool) := do
  let x ← load4 m (input + s.1)
  return if (x.a < low ∨ x.a > high) ∨ (x.b < low ∨ x.b > high) ∨ (x.c < low ∨ x.c > high) ∨ (x.d < low ∨ x.d > high)
    then (s.1, false) else (s.1 + 4, true)

/-- The loops of `allWithinSSE` (HelpersSSE.cpp:558-588). -/
def withinLoops (low high : ℚ) (input : Int) (size : Nat) (m : Mem) : Option Bool := do
  let lastAligned := prevAligned (input + size)
  let s ← loop (fun s => s.2 && unaligned [input + (s.1 : Int)] && decide (input + s.1 < lastAligned)) (withinStep low high input m) (size + 1) (0, true)
  let s ← loop (fun s => s.2 && decide (input + s.1 < lastAligned)) (withinVector low high input m) (size + 1) s
  let s ← loop (fun s => s.2 && decide (input + s.1 < input + size)) (withinStep low high input m) (size + 1) s
  return s.2

/-- `allWithinSSE` (HelpersSSE.cpp:550-589). -/
def allWithinSSE (input : Int) (low high : ℚ) (size : Nat) (m : Mem) : Option Bool :=
  if size = 0 then some true
  else if low > high then withinLoops high low input size m
  else withinLoops low high input size m

/-- The sums of `meanScalar` and `sumSquaresScalar` (HelpersScalar.h:146-174). -/
def sumScalar (g : ℚ → ℚ) (input : Int) (size : Nat) (m : Mem) : Option ℚ := do
  let s ← loop (fun s => decide (s.1 < size)) (sumStep g input m) (size + 1) (0, 0)
  return s.2

/-- `allWithinScalar` (HelpersScalar.h:220-239). -/
def allWithinScalar (input : Int) (low high : ℚ) (size : Nat) (m : Mem) : Option Bool :=
  if size = 0 then some true
  else do
    let (low, high) := if low > high then (high, low) else (low, high)
    let s ← loop (fun s => s.2 && decide (s.1 < size)) (withinStep low high input m) (size + 1) (0, true)
    return s.2

/-! ### Interleaved buffers -/

/-- One scalar turn of reading: two elements of the input. -/
def readStep (input left right : Int) (s : Mem × Nat) : Option (Mem × Nat) := do
  let x ← s.1 (input + 2 * s.2)
  let m ← write s.1 (left + s.2) x
  let y ← m (input + 2 * s.2 + 1)
  let m ← write m (right + s.2) y
  return (m, s.2 + 1)

/-- One vector turn of reading (HelpersSSE.cpp:31-43). -/
def readVector (input left right : Int) (s : Mem × Nat) : Option (Mem × Nat) := do
  let r0 ← load4 s.1 (input + 2 * s.2)
  let r1 ← load4 s.1 (input + 2 * s.2 + 4)
  let m ← store4 s.1 (left + s.2) ⟨r0.a, r0.c, r1.a, r1.c⟩
  let m ← store4 m (right + s.2) ⟨r0.b, r0.d, r1.b, r1.d⟩
  return (m, s.2 + 4)

/-- `readInterleavedSSE` (HelpersSSE.cpp:20-55). -/
def readInterleavedSSE (input left right : Int) (size : Nat) (m : Mem) : Option Mem := do
  let sentinel := input + size - 1
  let lastAligned := prevAligned (input + size - 4)
  let s ← loop (fun s => unaligned [input + 2 * (s.2 : Int), left + (s.2 : Int), right + (s.2 : Int)] && decide (input + 2 * s.2 < lastAligned))
    (readStep input left right) (size + 1) (m, 0)
  let s ← loop (fun s => decide (input + 2 * s.2 < lastAligned)) (readVector input left right) (size + 1) s
  let s ← loop (fun s => decide (input + 2 * s.2 < sentinel)) (readStep input left right) (size + 1) s
  return s.1

/-- `readInterleavedScalar` (HelpersScalar.h:10-18). -/
def readInterleavedScalar (input left right : Int) (size : Nat) (m : Mem) : Option Mem := do
  let s ← loop (fun s => decide (input + 2 * s.2 < input + size - 1)) (readStep input left right) (size + 1) (m, 0)
  return s.1

/-- One scalar turn of writing. -/
def interStep (left right output : Int) (s : Mem × Nat) : Option (Mem × Nat) := do
  let x ← s.1 (left + s.2)
  let m ← write s.1 (output + 2 * s.2) x
  let y ← m (right + s.2)
  let m ← write m (output + 2 * s.2 + 1) y
  return (m, s.2 + 1)

/-- One vector turn of writing (HelpersSSE.cpp:68-76). -/
def interVector (left right output : Int) (s : Mem × Nat) : Option (Mem × Nat) := do
  let l ← load4 s.1 (left + s.2)
  let r ← load4 s.1 (right + s.2)
  let m ← store4 s.1 (output + 2 * s.2) ⟨l.a, r.a, l.b, r.b⟩
  let m ← store4 m (output + 2 * s.2 + 4) ⟨l.c, r.c, l.d, r.d⟩
  return (m, s.2 + 4)

/-- `writeInterleavedSSE` (HelpersSSE.cpp:57-83). -/
def writeInterleavedSSE (left right output : Int) (size : Nat) (m : Mem) : Option Mem := do
  let sentinel := output + size - 1
  let lastAligned := prevAligned (output + size - 4)
  let s ← loop (fun s => unaligned [output + 2 * (s.2 : Int), right + (s.2 : Int), left + (s.2 : Int)] && decide (output + 2 * s.2 < lastAligned))
    (interStep left right output) (size + 1) (m, 0)
  let s ← loop (fun s => decide (output + 2 * s.2 < lastAligned)) (interVector left right output) (size + 1) s
  let s ← loop (fun s => decide (output + 2 * s.2 < sentinel)) (interStep left right output) (size + 1) s
  return s.1

/-- `writeInterleavedScalar` (HelpersScalar.h:20-28). -/
def writeInterleavedScalar (left right output : Int) (size : Nat) (m : Mem) : Option Mem := do
  let s ← loop (fun s => decide (output + 2 * s.2 < output + size - 1)) (interStep left right output) (size + 1) (m, 0)
  return s.1

end Verif.Simd
