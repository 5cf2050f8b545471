import Mathlib.Algebra.Order.Field.Rat
import Mathlib.Data.Rat.Floor

/-!
Model of the start parameters of a voice that depend on controllers: `sampleOffset`, `regionDelay`, `sampleEnd`,
`loopStart`, `loopEnd` (/repo/src/sfizz/RegionStateful.cpp:25-73), of the use of the loop points by
`updateLoopInformation` (/repo/src/sfizz/Voice.cpp:1739-1760), and of the number of frames the engine keeps in memory
for the offsets: `finalizeSfzLoad` (/repo/src/sfizz/Synth.cpp:799-808, 896-897) and `FilePool::preloadFile`
(/repo/src/sfizz/FilePool.cpp:310-356).

Controller values are exact rationals where the code multiplies in `float`; integers are those of the code, `none` being
undefined behaviour: overflow of `int64_t`, a conversion to `int64_t` that does not fit, and a random distribution over an
empty interval. The outcome of a random draw is a parameter.
-/
namespace Verif.Region

/-- An `int64_t` result: overflow is undefined. -/
def i64 (x : Int) : Option Int := if -2 ^ 63 ≤ x ∧ x < 2 ^ 63 then some x else none

/-- Truncation towards zero of a conversion to an integer. -/
def trunc (q : ℚ) : Int := if 0 ≤ q then ⌊q⌋ else ⌈q⌉

/-- `clamp` (MathHelpers.h:144-148). -/
def clamp {α : Type} [LinearOrder α] (v lo hi : α) : α := max (min v hi) lo

/-- `int32_t_max` (Defaults.cpp). -/
def int32Max : Int := 2147483647

/-- The opcodes of a region that decide where it starts and loops (Region.h:240-252); the maps from controllers are the
lists of their entries, in the order of the map. -/
structure Points where
  offset : Int := 0
  offsetRandom : Int := 0
  offsetCC : List (Nat × Int) := []
  sampleEnd : Int := int32Max
  endCC : List (Nat × Int) := []
  loopStart : Int := 0
  loopEnd : Int := int32Max
  loopStartCC : List (Nat × Int) := []
  loopEndCC : List (Nat × Int) := []
deriving DecidableEq, Repr

/-- The loops `x += static_cast<int64_t>(mod.data * midiState.getCCValue(mod.cc))` (RegionStateful.cpp:29-30, 48-49, 58-59,
68-69). -/
def addMods (cc : Nat → ℚ) : Int → List (Nat × Int) → Option Int
  | x, [] => some x
  | x, m :: ms => do
    let t ← i64 (trunc ((m.2 : ℚ) * cc m.1))
    let y ← i64 (x + t)
    addMods cc y ms

/-- `sampleOffset` (RegionStateful.cpp:25-32) when the distribution draws `draw`. A distribution over `{0, offsetRandom}`
requires `0 ≤ offsetRandom`. -/
def sampleOffset (p : Points) (cc : Nat → ℚ) (draw : Int) : Option Int :=
  if p.offsetRandom < 0 then none
  else do
    let x ← i64 (p.offset + draw)
    let y ← addMods cc x p.offsetCC
    return clamp y 0 int32Max

/-- Conversion of an `int64_t` to `uint32_t`. -/
def toU32 (x : Int) : Int := x % 2 ^ 32

/-- Conversion of a `uint32_t` to `int`. -/
def toInt (x : Int) : Int := if x < 2 ^ 31 then x else x - 2 ^ 32

/-- `sampleEnd`, `loopStart`, `loopEnd` (RegionStateful.cpp:45-73), which differ in the value they start from. -/
def modulated (start : Int) (mods : List (Nat × Int)) (last : Int) (cc : Nat → ℚ) : Option Int := do
  let x ← addMods cc start mods
  return toU32 (clamp x 0 last)

/-- `sampleEnd` (RegionStateful.cpp:45-53). -/
def sampleEnd (p : Points) (cc : Nat → ℚ) : Option Int := modulated p.sampleEnd p.endCC p.sampleEnd cc

/-- `loopStart` (RegionStateful.cpp:55-63). -/
def loopStart (p : Points) (cc : Nat → ℚ) : Option Int := modulated p.loopStart p.loopStartCC p.sampleEnd cc

/-- `loopEnd` (RegionStateful.cpp:65-73). -/
def loopEnd (p : Points) (cc : Nat → ℚ) : Option Int := modulated p.loopEnd p.loopEndCC p.sampleEnd cc

/-- `loop_` (Voice.cpp:250-259) without the counter. -/
structure Loop where
  start : Int
  stop : Int
  size : Int
  xfSize : Int
  xfOutStart : Int
  xfInStart : Int
deriving DecidableEq, Repr

/-- `updateLoopInformation` (Voice.cpp:1752-1759); `xf` is the rounded length of the crossfade. -/
def updateLoop (p : Points) (cc : Nat → ℚ) (xf : Int) : Option Loop := do
  let start := toInt (← loopStart p cc)
  let stop := max (toInt (← loopEnd p cc)) start
  let xfSize := min start xf
  return { start := start, stop := stop, size := stop + 1 - start, xfSize := xfSize,
           xfOutStart := stop + 1 - xfSize, xfInStart := start - xfSize }

/-- The opcodes `delay`, `delay_random` and `delay_oncc` (Region.h). -/
structure Delays where
  delay : ℚ := 0
  delayRandom : ℚ := 0
  delayCC : List (Nat × ℚ) := []
deriving DecidableEq, Repr

/-- `fast_real_distribution` (MathHelpers.h:682-686): `g` is the number drawn by the 32-bit generator. -/
def realDraw (a b : ℚ) (g : Nat) : ℚ := a + (g : ℚ) * ((b - a) / (2 ^ 32 - 1))

/-- `regionDelay` (RegionStateful.cpp:34-43). -/
def regionDelay (d : Delays) (cc : Nat → ℚ) (g : Nat) : ℚ :=
  clamp (d.delayCC.foldl (fun x m => x + m.2 * cc m.1) (d.delay + realDraw 0 d.delayRandom g)) 0 100

/-! ### The part of a sample kept in memory -/

/-- Conversion of a `uint64_t` to `int64_t`. -/
def wrap64 (x : Int) : Int := let r := x % 2 ^ 64; if r < 2 ^ 63 then r else r - 2 ^ 64

/-- `maxOffset` (Synth.cpp:799-804). The sum is an `int64_t`, the others are made in `uint64_t`. -/
def maxOffset (p : Points) : Option Int := do
  let x ← i64 (p.offset + p.offsetRandom)
  return clamp (wrap64 (p.offsetCC.foldl (fun s m => (s + m.2) % 2 ^ 64) (x % 2 ^ 64))) 0 int32Max

/-- `toLoad = max(toLoad, maxOffset)` over the regions with the same sample (Synth.cpp:806-807). -/
def fileOffset : Int → List Points → Option Int
  | x, [] => some x
  | x, p :: ps => do fileOffset (max x (← maxOffset p)) ps

/-- `framesToLoad` (FilePool.cpp:327-332). -/
def framesToLoad (loadInRam : Bool) (frames maxOff preloadSize : Nat) : Nat :=
  if loadInRam then frames else min frames ((maxOff + preloadSize) % 2 ^ 32)

/-- The frames in memory once the regions `ps` of a sample are loaded (Synth.cpp:896-897). -/
def preloaded (loadInRam : Bool) (frames preloadSize : Nat) (ps : List Points) : Option Nat := do
  let m ← fileOffset 0 ps
  return framesToLoad loadInRam frames m.toNat preloadSize

end Verif.Region
