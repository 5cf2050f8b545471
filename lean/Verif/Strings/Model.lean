import Mathlib.Analysis.SpecialFunctions.Trigonometric.Basic
import Mathlib.Analysis.SpecialFunctions.Pow.Real
import Mathlib.Data.Real.Sqrt

/-!
# Sympathetic strings

The resonators of the effect `strings`: one string, the array of strings that handles them one by
one, and the arrays that handle them in packs of 4 (SSE) or 8 (AVX).

Modelled: `/repo/src/sfizz/effects/Strings.cpp:31-125`,
`/repo/src/sfizz/effects/impl/ResonantString.cpp:26-99` (and its SSE and AVX copies, lane by lane),
`ResonantArray.cpp:22-76`, `ResonantArraySSE.cpp:26-102`, `ResonantArrayAVX.cpp:26-102`.

Simplified: arithmetic is exact; a value is a real number or not a number.  Every division by zero is
taken as not a number (the only one that arises below is 0/0).  As the memory of the strings lasts from block to
block, a run of blocks is one stream of frames, counted from the last `clear` or `setup`.
-/

namespace Verif.Strings

/-- A `float`: a real number, or not a number. -/
inductive Val where
  | fin (r : ℝ)
  | nan

namespace Val

noncomputable instance : Zero Val := ⟨fin 0⟩

/-- Addition: not a number if either side is not. -/
noncomputable instance : Add Val := ⟨fun a b => match a, b with
  | fin a, fin b => fin (a + b)
  | _, _ => nan⟩

/-- Subtraction. -/
noncomputable instance : Sub Val := ⟨fun a b => match a, b with
  | fin a, fin b => fin (a - b)
  | _, _ => nan⟩

/-- Multiplication: `0 * NaN` is not a number either. -/
noncomputable instance : Mul Val := ⟨fun a b => match a, b with
  | fin a, fin b => fin (a * b)
  | _, _ => nan⟩

open Classical in
/-- Division. -/
noncomputable instance : Div Val := ⟨fun a b => match a, b with
  | fin a, fin b => if b = 0 then nan else fin (a / b)
  | _, _ => nan⟩

open Classical in
/-- `std::sqrt`: not a number for negative numbers. -/
noncomputable def sqrt : Val → Val
  | fin a => if a < 0 then nan else fin (Real.sqrt a)
  | nan => nan

/-- `std::sin`. -/
noncomputable def sin : Val → Val
  | fin a => fin (Real.sin a)
  | nan => nan

/-- `std::cos`. -/
noncomputable def cos : Val → Val
  | fin a => fin (Real.cos a)
  | nan => nan

/-- `std::tan`. -/
noncomputable def tan : Val → Val
  | fin a => fin (Real.tan a)
  | nan => nan

end Val

open Val

/-- What a string is set up with: pitch in Hz, bandwidth in Hz, feedback, gain. -/
structure Par where
  pitch : ℝ
  bandwidth : ℝ
  feedback : ℝ
  gain : ℝ

/-- `fControl[]` of a `ResonantString`, the entries which `process` reads. -/
structure Coef where
  c0 : Val
  c1 : Val
  c4 : Val
  c5 : Val
  c13 : Val
  c14 : Val
  c15 : Val
  c16 : Val
  c17 : Val

/-- `ResonantString::init` and the three setters (ResonantString.cpp:31-82). -/
noncomputable def setup (fs : ℝ) (p : Par) : Coef :=
  let k0 := fin fs
  let k1 := fin (2 * Real.pi) / k0
  let k2 := fin 2 / k0
  let k3 := fin 2 * k0
  let k4 := fin Real.pi / k0
  let k5 := fin (1 / 2) / k0
  let k6 := fin 4 * (k0 * k0)
  let k7 := (fin 1 / k0) * (fin 1 / k0)
  let k8 := fin 2 * k7
  let c2 := fin p.pitch
  let c3 := k1 * c2
  let c6 := fin (1 / 2) * fin p.bandwidth
  let c7 := tan (k4 * (c6 + c2))
  let root := sqrt (k6 * (c7 * tan (k4 * (c2 - c6))))
  let c8 := root * root
  let c9 := k3 * c7 - k5 * (c8 / c7)
  let c10 := k7 * c8
  let c11 := k2 * c9
  let c12 := c10 + c11 + fin 4
  let c13 := k2 * (c9 / c12)
  { c0 := fin p.gain
    c1 := fin p.feedback
    c4 := sin c3
    c5 := cos c3
    c13 := c13
    c14 := fin 0 - c13
    c15 := fin 1 / c12
    c16 := k8 * c8 + fin (-8)
    c17 := c10 + (fin 4 - c11) }

/-- The memory of a string: `fRec0[1]`, `fRec1[1]`, `fRec2[1]`, `fRec2[2]`. -/
structure Mem where
  r0 : Val
  r1 : Val
  r21 : Val
  r22 : Val

/-- `ResonantString::clear` (ResonantString.cpp:46-57). -/
def cleared : Mem := ⟨fin 0, fin 0, fin 0, fin 0⟩

/-- `ResonantString::process` (ResonantString.cpp:84-96). -/
noncomputable def tick (c : Coef) (m : Mem) (x : Val) : Mem × Val :=
  let n0 := c.c1 * (c.c4 * m.r1 + c.c5 * m.r0)
  let n2 := x - c.c15 * (c.c16 * m.r21 + c.c17 * m.r22)
  let n1 := (c.c14 * m.r22 + (c.c5 * m.r1 + c.c13 * n2)) - c.c4 * m.r0
  (⟨n0, n1, n2, m.r21⟩, c.c0 * n0)

/-- The memory before frame `n` of the stream `x`. -/
noncomputable def mem (c : Coef) (x : ℕ → Val) : ℕ → Mem
  | 0 => cleared
  | n + 1 => (tick c (mem c x n) (x n)).1

/-- What the string gives at frame `n`. -/
noncomputable def out (c : Coef) (x : ℕ → Val) (n : ℕ) : Val := (tick c (mem c x n) (x n)).2

/-- `ResonantArrayScalar` (ResonantArray.cpp:22-76): the strings are added up one by one. -/
noncomputable def scalar (fs : ℝ) (ps : List Par) (x : ℕ → Val) (n : ℕ) : Val :=
  ps.foldl (fun a p => a + out (setup fs p) x n) (fin 0)

/-- The parameters of an unused lane: all four vectors start as zero
(ResonantArraySSE.cpp:41-44). -/
noncomputable def padding : Par := ⟨0, 0, 0, 0⟩

/-- Pack number `q` of `W` lanes (ResonantArraySSE.cpp:37-57). -/
noncomputable def pack (W : ℕ) (ps : List Par) (q : ℕ) : List Par :=
  (List.range W).map fun j => (ps[q * W + j]?).getD padding

/-- `ResonantArraySSE`, `ResonantArrayAVX` (ResonantArraySSE.cpp:79-102): packs are added lane by
lane, then the lanes are added up. -/
noncomputable def packed (W : ℕ) (fs : ℝ) (ps : List Par) (x : ℕ → Val) (n : ℕ) : Val :=
  let packs := (List.range ((ps.length + W - 1) / W)).map (pack W ps)
  let lanes := packs.foldl (fun acc q => List.zipWith (fun a p => a + out (setup fs p) x n) acc q)
    (List.replicate W (fin 0))
  lanes.foldl (· + ·) (fin 0)

/-- `Strings::setSampleRate` (Strings.cpp:51-86): the strings are the notes from 24 up. -/
noncomputable def par (fs : ℝ) (i : ℕ) : Par where
  pitch := 440 * (2 : ℝ) ^ (((i : ℝ) + 24 - 69) * (1 / 12))
  bandwidth := 1
  feedback := Real.exp (-6.91 / (0.05 * fs))
  gain := 1 / 1000

/-- The parameters of all strings. -/
noncomputable def pars (fs : ℝ) (number : ℕ) : List Par := (List.range number).map (par fs)

/-- `Strings::process` (Strings.cpp:99-125), one channel `own` of the stereo pair: the strings hear
the sum of both channels times the square root of 1/2. -/
noncomputable def effect (W : ℕ) (fs : ℝ) (number : ℕ) (wet : ℝ) (left right own : ℕ → ℝ) (n : ℕ) :
    Val :=
  let source := fun k => fin (Real.sqrt (1 / 2)) * fin (left k) +
    fin (Real.sqrt (1 / 2)) * fin (right k)
  fin (own n) + fin wet * packed W fs (pars fs number) source n

end Verif.Strings
