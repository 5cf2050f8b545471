import Mathlib.Algebra.Order.Floor.Ring
import Mathlib.Algebra.Order.Field.Basic
import Mathlib.Logic.Function.Basic

/-!
Model of the effects (/repo/src/sfizz/effects): Gain, Width, Apan, Rectify, Lofi, Strings, Compressor, Gate, Limiter, Disto, and
of the resamplers they use (/repo/src/external/hiir/hiir: StageProcFpu.hpp, Upsampler2xFpu.hpp, Downsampler2xFpu.hpp).

Numbers are those of any ordered field, without rounding. The buffers of a bus are a memory: buffer, then frame. `process` of an
effect gets the numbers of its two input and two output buffers, which are the same ones when the effect is not the first of its
bus (Effects.cpp:151-166), so that reading and writing happen in the order of the code. The private buffers of the effects are
values; using more frames than they were made for (`setSamplesPerBlock`) gives `none`.

Simplified: the SSE and NEON resamplers compute with the same coefficients, in another order, and are not modelled; numbers that
come out of `pow`, `exp` and `log10` of the opcodes are parameters here (see `Verif.Effects.Dynamics` for the compressor and the
gate); casts of numbers beyond `int` are not modelled. Not modelled: Fverb, Filter, Eq.
-/
namespace Verif.Effects

variable {K : Type}

/-- The buffers of a bus: buffer, frame. -/
abbrev Mem (K : Type) := Nat → Nat → K

/-- Writing a sample. -/
def Mem.put (m : Mem K) (b i : Nat) (v : K) : Mem K := Function.update m b (Function.update (m b) i v)

/-- `for (i = 0; i < n; ++i)`. -/
def loop {σ : Type} (body : Nat → σ → σ) : Nat → σ → σ
  | 0, s => s
  | n + 1, s => body n (loop body n s)

/-- The buffers an effect is given: `inputs[0]`, `inputs[1]`, `outputs[0]`, `outputs[1]`. -/
structure Ports where
  inL : Nat
  inR : Nat
  outL : Nat
  outR : Nat

/-- A loop over the frames of one channel. -/
def channel {σ : Type} (step : σ → K → σ × K) (inp out n : Nat) (s : σ) (m : Mem K) : σ × Mem K :=
  loop (fun i sm =>
    let r := step sm.1 (sm.2 inp i)
    (r.1, sm.2.put out i r.2)) n (s, m)

/-- A loop over the frames of both channels. -/
def both {σ : Type} (step : σ → K × K → σ × (K × K)) (p : Ports) (n : Nat) (s : σ) (m : Mem K) : σ × Mem K :=
  loop (fun i sm =>
    let r := step sm.1 (sm.2 p.inL i, sm.2 p.inR i)
    (r.1, (sm.2.put p.outL i r.2.1).put p.outR i r.2.2)) n (s, m)

/-- A loop over the channels around a loop over the frames. -/
def channels {σ : Type} (step : σ → K → σ × K) (p : Ports) (n : Nat) (s : σ × σ) (m : Mem K) : (σ × σ) × Mem K :=
  let a := channel step p.inL p.outL n s.1 m
  let b := channel step p.inR p.outR n s.2 a.2
  ((a.1, b.1), b.2)

/-! ### Resamplers -/

/-- The memories `_x`, `_y` of a stage. -/
abbrev Stage (K : Type) := K × K

section
variable [Field K]

/-- `StageProcFpu<N>::process_sample_pos` (StageProcFpu.hpp:46-94). -/
def stages : List K → List (Stage K) → K → K → List (Stage K) × K × K
  | c0 :: c1 :: cs, m0 :: m1 :: ms, s0, s1 =>
    let t0 := (s0 - m0.2) * c0 + m0.1
    let t1 := (s1 - m1.2) * c1 + m1.1
    let r := stages cs ms t0 t1
    ((s0, t0) :: (s1, t1) :: r.1, r.2)
  | [c], m :: _, s0, s1 =>
    let t := (s0 - m.2) * c + m.1
    ([(s0, t)], t, s1)
  | _, _, s0, s1 => ([], s0, s1)

/-- `clear_buffers` (Upsampler2xFpu.hpp:176-183, Downsampler2xFpu.hpp:274-281). -/
def silentStages (coefs : List K) : List (Stage K) := coefs.map fun _ => (0, 0)

/-- `Upsampler2xFpu::process_sample` (Upsampler2xFpu.hpp:109-123). -/
def upSample (coefs : List K) (mem : List (Stage K)) (x : K) : List (Stage K) × K × K := stages coefs mem x x

/-- `Downsampler2xFpu::process_sample` (Downsampler2xFpu.hpp:107-129); `a` is the earlier sample. -/
def downSample (coefs : List K) (mem : List (Stage K)) (a b : K) : List (Stage K) × K :=
  let r := stages coefs mem b a
  (r.1, 1 / 2 * (r.2.1 + r.2.2))

/-- `Upsampler2xFpu::process_block` (Upsampler2xFpu.hpp:143-162) on the samples given. -/
def upList (coefs : List K) : List (Stage K) → List K → List (Stage K) × List K
  | mem, [] => (mem, [])
  | mem, x :: xs =>
    let r := upSample coefs mem x
    let rest := upList coefs r.1 xs
    (rest.1, r.2.1 :: r.2.2 :: rest.2)

/-- `Downsampler2xFpu::process_block` (Downsampler2xFpu.hpp:148-165) on the samples given. -/
def downList (coefs : List K) : List (Stage K) → List K → List (Stage K) × List K
  | mem, a :: b :: xs =>
    let r := downSample coefs mem a b
    let rest := downList coefs r.1 xs
    (rest.1, r.2 :: rest.2)
  | mem, _ => (mem, [])

/-- The frames that `process_block` works on: its loop is a `do while`, one frame at least. -/
def blockFrames (n : Nat) : Nat := max n 1

/-- The first frames of a buffer. -/
def read (n b : Nat) (m : Mem K) : List K := (List.range n).map (m b)

/-- Writing consecutive frames from the start of a buffer. -/
def write (b : Nat) (l : List K) (m : Mem K) : Mem K :=
  Function.update m b fun i => (l[i]?).getD (m b i)

/-- A sample-by-sample computation on a list. -/
def mapAccum {σ α β : Type} (step : σ → α → σ × β) : σ → List α → σ × List β
  | s, [] => (s, [])
  | s, x :: xs =>
    let r := step s x
    let rest := mapAccum step r.1 xs
    (rest.1, r.2 :: rest.2)

/-! ### Gain, Width, Apan, Strings -/

/-- `Gain::process` (Gain.cpp:39-55); `lin` is `pow(10, 0.05 * gain)`, `cap` the size of the temporary buffer. -/
def gainProcess (cap : Nat) (lin : K) (n : Nat) (p : Ports) (s : Unit × Unit) (m : Mem K) : Option ((Unit × Unit) × Mem K) :=
  if n ≤ cap then some (channels (fun _ x => ((), lin * x)) p n s m) else none

/-- `Width::process` (Width.cpp:39-62); `c1`, `c2` are `panLookup(w)`, `panLookup(1 - w)`. -/
def widthProcess (cap : Nat) (c1 c2 : K) (n : Nat) (p : Ports) (s : Unit) (m : Mem K) : Option (Unit × Mem K) :=
  if n ≤ cap then
    some (both (fun _ f => ((), (f.1 * c2 + f.2 * c1, f.1 * c1 + f.2 * c2))) p n s m)
  else none

/-- The parameters of `Apan` (Apan.h:50-63); `delta` is `frequency * samplePeriod`, `wave` is `evaluateAtPhase`. -/
structure Apan (K : Type) where
  dry : K
  wet : K
  depth : K
  delta : K
  offset : K
  wave : K → K

/-- `x -= static_cast<int>(x)` of a number that is not negative. -/
def wrap [LinearOrder K] [FloorRing K] (x : K) : K := x - (⌊x⌋ : K)

/-- One step of `computeLfos` (Apan.cpp:125-144). -/
def Apan.lfo [LinearOrder K] [FloorRing K] (a : Apan K) (phase : K) : K × K × K :=
  (wrap (phase + a.delta), a.wave phase, a.wave (wrap (phase + a.offset)))

/-- `computeLfos` (Apan.cpp:125-144): the phase after it, and what it leaves in `_lfoOutLeft` and `_lfoOutRight`. -/
def Apan.lfos [LinearOrder K] [FloorRing K] (a : Apan K) (phase : K) (n : Nat) : K × List (K × K) :=
  mapAccum (fun ph (_ : Unit) => ((a.lfo ph).1, (a.lfo ph).2)) phase (List.replicate n ())

/-- The gain of a channel for its side of the modulation (Apan.cpp:65-72). -/
def Apan.frame (a : Apan K) (mod : K × K) (f : K × K) : K × K :=
  let modDD := a.depth * (1 / 2) * (mod.1 - mod.2)
  (f.1 * ((1 - modDD) * a.wet + a.dry), f.2 * ((1 + modDD) * a.wet + a.dry))

/-- `Apan::process` (Apan.cpp:49-74); the state is `_lfoPhase`. -/
def apanProcess [LinearOrder K] [FloorRing K] (cap : Nat) (a : Apan K) (n : Nat) (p : Ports) (phase : K) (m : Mem K) :
    Option (K × Mem K) :=
  if n ≤ cap then
    let l := a.lfos phase n
    let r := both (fun (todo : List (K × K)) f => (todo.tail, a.frame (todo.headD (0, 0)) f)) p n l.2 m
    some (l.1, r.2)
  else none

/-- `Strings::process` (Strings.cpp:99-125); `half` is `M_SQRT1_2`, `res` one sample through the resonators
(`ResonantArray::process`, each string by itself). -/
def stringsProcess {σ : Type} (cap : Nat) (half wet : K) (res : σ → K → σ × K) (n : Nat) (p : Ports) (s : σ) (m : Mem K) :
    Option (σ × Mem K) :=
  if n ≤ cap then
    let input := (read n p.inL m).zipWith (fun l r => half * l + half * r) (read n p.inR m)
    let r := mapAccum res s input
    -- sfz::copy of the inputs, then sfz::multiplyAdd
    let m := write p.outL (read n p.inL m) m
    let m := write p.outR (read n p.inR m) m
    let m := write p.outL ((read n p.outL m).zipWith (fun x y => x + wet * y) r.2) m
    let m := write p.outR ((read n p.outR m).zipWith (fun x y => x + wet * y) r.2) m
    some (r.1, m)
  else none

/-! ### Rectify, Lofi -/

/-- One sample of `Rectify::process` (Rectify.cpp:65-78); `amount` is already divided by 100 and halved when not full. -/
def rectifyStep [LinearOrder K] (coefs : List K) (amount : K) (s : List (Stage K) × List (Stage K)) (x : K) :
    (List (Stage K) × List (Stage K)) × K :=
  let u := upSample coefs s.1 x
  let shape := fun y : K => amount * |y| + (1 - amount) * y
  let d := downSample coefs s.2 (shape u.2.1) (shape u.2.2)
  ((u.1, d.1), d.2)

/-- `Rectify::process` (Rectify.cpp:50-80). -/
def rectifyProcess [LinearOrder K] (cap : Nat) (coefs : List K) (amount : K) (n : Nat) (p : Ports)
    (s : (List (Stage K) × List (Stage K)) × (List (Stage K) × List (Stage K))) (m : Mem K) :
    Option (((List (Stage K) × List (Stage K)) × (List (Stage K) × List (Stage K))) × Mem K) :=
  if n ≤ cap then some (channels (rectifyStep coefs amount) p n s m) else none

/-- `fLastValue` and the downsampler of `Bitred` (Lofi.h:57-60). -/
structure Bitred (K : Type) where
  last : K
  down : List (Stage K)

/-- `fPhase`, `fLastValue` and the downsampler of `Decim` (Lofi.h:71-75). -/
structure Decim (K : Type) where
  phase : K
  last : K
  down : List (Stage K)

/-- The parameters of `Lofi`: the depths, clamped (Lofi.cpp:113-116, 165-168), and `dt` (Lofi.cpp:179-184). -/
structure Lofi (K : Type) where
  bitDepth : K
  decimDepth : K
  dt : K

/-- Making a step of a held value smoother, and the downsampler (Lofi.cpp:137-143, 198-204). -/
def held [DecidableEq K] (coefs : List K) (down : List (Stage K)) (last y : K) : List (Stage K) × K :=
  downSample coefs down (if y ≠ last then 1 / 2 * (y + last) else y) y

/-- `steps` (Lofi.cpp:127). -/
def Lofi.steps (f : Lofi K) : K := (1 + (100 - f.bitDepth)) * (3 / 4)

/-- `copysign((int)(0.5f + fabs(x * steps)), x) * invSteps` (Lofi.cpp:134). -/
def Lofi.quantize [LinearOrder K] [FloorRing K] (f : Lofi K) (x : K) : K :=
  let k : K := (⌊1 / 2 + |x * f.steps|⌋ : K)
  (if x < 0 then -k else k) * (1 / f.steps)

/-- The loop of `Bitred::process` (Lofi.cpp:131-146). -/
def Lofi.bitStep [LinearOrder K] [FloorRing K] (coefs : List K) (f : Lofi K) (s : Bitred K) (x : K) : Bitred K × K :=
  let y := f.quantize x
  let d := held coefs s.down s.last y
  (⟨y, d.1⟩, d.2)

/-- The loop of `Decim::process` (Lofi.cpp:190-207). -/
def Lofi.decimStep [LinearOrder K] [FloorRing K] (coefs : List K) (f : Lofi K) (s : Decim K) (x : K) : Decim K × K :=
  let phase := s.phase + f.dt
  let y := if phase > 1 then x else s.last
  let d := held coefs s.down s.last y
  (⟨wrap phase, y, d.1⟩, d.2)

/-- `memcpy` of `n` samples unless the pointers are the same. -/
def copyUnlessSame (inp out n : Nat) (m : Mem K) : Mem K := if inp ≠ out then write out (read n inp m) m else m

/-- `Bitred::process` (Lofi.cpp:118-149). -/
def Lofi.bitProcess [LinearOrder K] [FloorRing K] (coefs : List K) (f : Lofi K) (inp out n : Nat) (s : Bitred K) (m : Mem K) :
    Bitred K × Mem K :=
  if f.bitDepth = 0 then (⟨0, silentStages coefs⟩, copyUnlessSame inp out n m)
  else channel (f.bitStep coefs) inp out n s m

/-- `Decim::process` (Lofi.cpp:170-210). -/
def Lofi.decimProcess [LinearOrder K] [FloorRing K] (coefs : List K) (f : Lofi K) (inp out n : Nat) (s : Decim K) (m : Mem K) :
    Decim K × Mem K :=
  if f.decimDepth = 0 then (⟨0, 0, silentStages coefs⟩, copyUnlessSame inp out n m)
  else channel (f.decimStep coefs) inp out n s m

/-- One channel of `Lofi::process` (Lofi.cpp:71-77). -/
def Lofi.channel [LinearOrder K] [FloorRing K] (coefs : List K) (f : Lofi K) (inp out n : Nat) (s : Bitred K × Decim K)
    (m : Mem K) : (Bitred K × Decim K) × Mem K :=
  let a := f.bitProcess coefs inp out n s.1 m
  let b := f.decimProcess coefs out out n s.2 a.2
  ((a.1, b.1), b.2)

/-- `Lofi::process` (Lofi.cpp:69-78). -/
def lofiProcess [LinearOrder K] [FloorRing K] (coefs : List K) (f : Lofi K) (n : Nat) (p : Ports)
    (s : (Bitred K × Decim K) × (Bitred K × Decim K)) (m : Mem K) :
    Option (((Bitred K × Decim K) × (Bitred K × Decim K)) × Mem K) :=
  let a := f.channel coefs p.inL p.outL n s.1 m
  let b := f.channel coefs p.inR p.outR n s.2 a.2
  some ((a.1, b.1), b.2)

/-! ### Compressor, Gate, Limiter -/

/-- The state of `Compressor::Impl` and `Gate::Impl` (Compressor.cpp:32-40, Gate.cpp:35-43): two detectors, the resamplers. -/
structure Dyn (K σ : Type) where
  coreL : σ
  coreR : σ
  upL : List (Stage K)
  upR : List (Stage K)
  downL : List (Stage K)
  downR : List (Stage K)

/-- The detectors and the gains (Compressor.cpp:103-140, Gate.cpp:106-143): two of them, or a single one when linked, which is
given `abs(left2x[i]) + abs(right2x[1])`. -/
def gains [LinearOrder K] {σ : Type} (core : σ → K → σ × K) (linked : Bool) (l r : σ) (left right : List K) :
    Option ((σ × σ) × List K × List K) :=
  if linked then
    match left, right[1]? with
    | [], _ => some ((l, r), [], [])
    | _ :: _, none => none
    | _ :: _, some second =>
      let g := mapAccum core l (left.map fun x => |x| + |second|)
      some ((g.1, r), g.2, g.2)
  else
    let a := mapAccum core l left
    let b := mapAccum core r right
    some ((a.1, b.1), a.2, b.2)

/-- `Compressor::process` (Compressor.cpp:84-146) and `Gate::process` (Gate.cpp:87-149): `core` is one sample of `compute`. -/
def dynProcess [LinearOrder K] {σ : Type} (cap : Nat) (coefs : List K) (core : σ → K → σ × K) (inputGain : K) (linked : Bool)
    (n : Nat) (p : Ports) (s : Dyn K σ) (m : Mem K) : Option (Dyn K σ × Mem K) :=
  if blockFrames n ≤ cap then
    let ul := upList coefs s.upL (read (blockFrames n) p.inL m)
    let ur := upList coefs s.upR (read (blockFrames n) p.inR m)
    -- the loops over `_oversampling * nframes` samples leave the others alone
    let left := (ul.2.take (2 * n)).map (· * inputGain)
    let right := (ur.2.take (2 * n)).map (· * inputGain)
    match gains core linked s.coreL s.coreR left right with
    | none => none
    | some (cores, gl, gr) =>
      let left := left.zipWith (· * ·) gl ++ ul.2.drop (2 * n)
      let right := right.zipWith (· * ·) gr ++ ur.2.drop (2 * n)
      let dl := downList coefs s.downL left
      let dr := downList coefs s.downR right
      some (⟨cores.1, cores.2, ul.1, ur.1, dl.1, dr.1⟩, write p.outR dr.2 (write p.outL dl.2 m))
  else none

/-- `Compressor::clear`, `Gate::clear` (Compressor.cpp:77-82, Gate.cpp:80-85): `instanceClear` of the detectors. -/
def Dyn.clear {σ : Type} (cleared : σ) (s : Dyn K σ) : Dyn K σ := { s with coreL := cleared, coreR := cleared }

/-- The memories of one channel of the limiter (limiter.hxx): `fRec2`, `fRec1`, `fRec0`. -/
structure LimitCore (K : Type) where
  peak : K
  smooth : K
  gain : K

/-- One sample of one channel of `faustLimiter::compute` (limiter.hxx:131-158); `k1`, `k3`, `k5` are `fConst1`, `fConst3`,
`fConst5`, of which the others are the complements to 1 (limiter.hxx:73-79). -/
def limitStep [LinearOrder K] (k1 k3 k5 : K) (s : LimitCore K) (x : K) : LimitCore K × K :=
  let peak := max |x| (k5 * s.peak + (1 - k5) * |x|)
  let smooth := k3 * s.smooth + (1 - k3) * peak
  let gain := k1 * s.gain + (1 - k1) * (if smooth > 1 then 1 / smooth else 1)
  (⟨peak, smooth, gain⟩, x * gain)

/-- `Limiter::process` (Limiter.cpp:57-68): the channels do not meet in `compute`. -/
def limiterProcess [LinearOrder K] (cap : Nat) (coefs : List K) (k1 k3 k5 : K) (n : Nat) (p : Ports) (s : Dyn K (LimitCore K))
    (m : Mem K) : Option (Dyn K (LimitCore K) × Mem K) :=
  if blockFrames n ≤ cap then
    let ul := upList coefs s.upL (read (blockFrames n) p.inL m)
    let ur := upList coefs s.upR (read (blockFrames n) p.inR m)
    let cl := mapAccum (limitStep k1 k3 k5) s.coreL (ul.2.take (2 * n))
    let cr := mapAccum (limitStep k1 k3 k5) s.coreR (ur.2.take (2 * n))
    let dl := downList coefs s.downL (cl.2 ++ ul.2.drop (2 * n))
    let dr := downList coefs s.downR (cr.2 ++ ur.2.drop (2 * n))
    some (⟨cl.1, cr.1, ul.1, ur.1, dl.1, dr.1⟩, write p.outR dr.2 (write p.outL dl.2 m))
  else none

/-! ### Disto -/

/-- The state of one channel of `Disto::Impl` (Disto.cpp:36-50): the low pass, the stages, the memories of the resamplers. -/
structure Disto (K σ : Type) where
  lpf : K
  stages : σ
  up : List (Stage K) × List (Stage K) × List (Stage K)
  down : List (Stage K) × List (Stage K) × List (Stage K)

/-- The parameters of `Disto`: `dry`, `wet`, `toneLpfPole` (Disto.cpp:119-122), the coefficients of the resamplers
(OversamplerHelpers.hxx:19-46), and `drive`, one sample through all the stages (Disto.cpp:145-153). -/
structure DistoParams (K σ : Type) where
  dry : K
  wet : K
  pole : K
  c2 : List K
  c4 : List K
  c8 : List K
  drive : σ → K → σ × K

/-- `Upsampler::process8x` (OversamplerHelpers.hxx:171-188): the temporary buffer has `8 * nframes` samples, and its loop turns
once. -/
def up8 {σ : Type} (d : DistoParams K σ) (s : List (Stage K) × List (Stage K) × List (Stage K)) (xs : List K) :
    (List (Stage K) × List (Stage K) × List (Stage K)) × List K :=
  let a := upList d.c2 s.1 xs
  let b := upList d.c4 s.2.1 a.2
  let c := upList d.c8 s.2.2 b.2
  ((a.1, b.1, c.1), c.2)

/-- `Downsampler::process8x` (OversamplerHelpers.hxx:377-394). -/
def down8 {σ : Type} (d : DistoParams K σ) (s : List (Stage K) × List (Stage K) × List (Stage K)) (xs : List K) :
    (List (Stage K) × List (Stage K) × List (Stage K)) × List K :=
  let a := downList d.c8 s.2.2 xs
  let b := downList d.c4 s.2.1 a.2
  let c := downList d.c2 s.1 b.2
  ((c.1, b.1, a.1), c.2)

/-- One channel of `Disto::process` (Disto.cpp:124-162). -/
def distoChannel {σ : Type} (d : DistoParams K σ) (inp out n : Nat) (s : Disto K σ) (m : Mem K) : Disto K σ × Mem K :=
  -- compute LPF
  let f := channel (fun mem x => (x * d.dry * (1 - d.pole) + mem * d.pole, x * d.dry * (1 - d.pole) + mem * d.pole))
    inp out n s.lpf m
  -- upsample, run the stages, downsample
  let u := up8 d s.up (read n out f.2)
  let v := mapAccum d.drive s.stages u.2
  let w := down8 d s.down v.2
  let m := write out w.2 f.2
  -- dry/wet mix
  let m := loop (fun i m => m.put out i (m out i * d.wet + m inp i * (1 - d.wet))) n m
  (⟨f.1, v.1, u.1, w.1⟩, m)

/-- `Disto::process` (Disto.cpp:113-163); without any frame the loops of `process8x` do not turn. -/
def distoProcess {σ : Type} (cap : Nat) (d : DistoParams K σ) (n : Nat) (p : Ports) (s : Disto K σ × Disto K σ) (m : Mem K) :
    Option ((Disto K σ × Disto K σ) × Mem K) :=
  if n ≤ cap then
    let a := distoChannel d p.inL p.outL n s.1 m
    let b := distoChannel d p.inR p.outR n s.2 a.2
    some ((a.1, b.1), b.2)
  else none

/-! ### Buses -/

/-- An effect: what it keeps from a block to the next, the frames its buffers hold, `Effect::process`. -/
structure Effect (K : Type) where
  State : Type
  cap : Nat
  process : Nat → Ports → State → Mem K → Option (State × Mem K)

/-- The effects of a bus, with their parameters. -/
inductive Kind (K : Type) : Type 1
  | gain (lin : K)
  | width (c1 c2 : K)
  | apan (a : Apan K)
  | strings (σ : Type) (half wet : K) (res : σ → K → σ × K)
  | rectify (coefs : List K) (amount : K)
  | lofi (coefs : List K) (f : Lofi K)
  | dyn (σ : Type) (coefs : List K) (core : σ → K → σ × K) (inputGain : K) (linked : Bool)
  | limiter (coefs : List K) (k1 k3 k5 : K)
  | disto (σ : Type) (d : DistoParams K σ)

/-- The effect of each kind, its buffers made for blocks of `cap` frames. -/
def Kind.effect [LinearOrder K] [FloorRing K] (cap : Nat) : Kind K → Effect K
  | .gain lin => ⟨Unit × Unit, cap, gainProcess cap lin⟩
  | .width c1 c2 => ⟨Unit, cap, widthProcess cap c1 c2⟩
  | .apan a => ⟨K, cap, apanProcess cap a⟩
  | .strings σ half wet res => ⟨σ, cap, stringsProcess cap half wet res⟩
  | .rectify coefs amount => ⟨_, cap, rectifyProcess cap coefs amount⟩
  | .lofi coefs f => ⟨_, cap, lofiProcess coefs f⟩
  | .dyn σ coefs core g linked => ⟨Dyn K σ, cap, dynProcess cap coefs core g linked⟩
  | .limiter coefs k1 k3 k5 => ⟨_, cap, limiterProcess cap coefs k1 k3 k5⟩
  | .disto σ d => ⟨_, cap, distoProcess cap d⟩

/-- An effect on a bus and its state. -/
structure Running [LinearOrder K] [FloorRing K] (cap : Nat) where
  kind : Kind K
  state : (kind.effect cap).State

/-- The effects after the first one, on the outputs of the bus in place (Effects.cpp:159-161). The inputs of the bus are the
buffers 0 and 1, its outputs the buffers 2 and 3. -/
def restProcess [LinearOrder K] [FloorRing K] {cap : Nat} (n : Nat) :
    List (Running (K := K) cap) → Mem K → Option (List (Running (K := K) cap) × Mem K)
  | [], m => some ([], m)
  | r :: rs, m =>
    match (r.kind.effect cap).process n ⟨2, 3, 2, 3⟩ r.state m with
    | none => none
    | some a => (restProcess n rs a.2).map fun b => (⟨r.kind, a.1⟩ :: b.1, b.2)

/-- `EffectBus::process` (Effects.cpp:151-166) of a bus that is heard. -/
def busProcess [LinearOrder K] [FloorRing K] {cap : Nat} (n : Nat) :
    List (Running (K := K) cap) → Mem K → Option (List (Running (K := K) cap) × Mem K)
  | [], m => some ([], copyUnlessSame 1 3 n (copyUnlessSame 0 2 n m))
  | r :: rs, m =>
    match (r.kind.effect cap).process n ⟨0, 1, 2, 3⟩ r.state m with
    | none => none
    | some a => (restProcess n rs a.2).map fun b => (⟨r.kind, a.1⟩ :: b.1, b.2)

/-- `OSCoeffs2x` (OversamplerHelpers.hxx:19-32). -/
def coeffs2x : List ℚ :=
  [36681502163648017, 136547624631957715, 274631759379454110, 423138617436566666, 561098697879194752, 677540049974161618,
   769741833863226588, 839889624849638028, 892260818003878908, 931541959963183896, 962094548378083947, 987816370732897076].map
    fun k : ℚ => k / 10 ^ 18

end

end Verif.Effects
