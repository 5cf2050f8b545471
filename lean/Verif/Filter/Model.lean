import Mathlib.Analysis.SpecialFunctions.Pow.Real
import Mathlib.Analysis.SpecialFunctions.Trigonometric.Basic
import Mathlib.Analysis.SpecialFunctions.Trigonometric.Bounds
import Mathlib.Analysis.SpecialFunctions.Log.Basic
import Mathlib.Analysis.SpecialFunctions.Sqrt

/-!
# The per-voice filters and equalizers

Models the generated DSP of `src/sfizz/gen/filters/*.hxx` (Faust output of
`src/sfizz/dsp/filters/sfz_filters.dsp`) and the wrapper that drives it,
`src/sfizz/SfzFilter.cpp`.

Every generated filter has the same shape, which is the record `Dsp` below:

* some *coefficients* of type `C`, smoothed at the start of each frame towards the values
  asked for by the controls (`fRecK[0] = fSlowS * fRecK[1] + target * (1 - fSlowS)`);
* for each channel a *memory* of type `D`, advanced by one input sample under the
  coefficients of the frame.

Simplifications.  The generated code computes in `double` and rounds the result to `float`;
the model computes in the exact reals.  The decimal constants `6.2831853071795862`,
`3.1415926535897931` and `2.1775860903036022` of the generated code are `2π`, `π` and
`π log 2`.  Where the generator shares one smoothed variable between two coefficients which
have the same target (for instance the first and third feed-forward coefficients of the
low-pass), the model keeps two: they start equal, are moved by the same rule and so stay
equal.
-/

namespace Verif.Filter

open Real

/-- The three controls of a filter (`configureStandard`/`configureEq`,
`SfzFilterImpls.hpp:104-160`): a frequency in Hz, a resonance in dB (a bandwidth in octaves
for the equalizer bands), and a peak or shelf gain in dB. -/
structure Ctl where
  cutoff : ℝ
  q : ℝ
  gain : ℝ

/-- A generated filter class: smoothed coefficients `C`, memory of one channel `D`. -/
structure Dsp (C D : Type) where
  /-- `instanceClear`, coefficient part. -/
  c0 : C
  /-- `instanceClear`, memory part. -/
  d0 : D
  /-- The coefficient updates of one frame, with smoothing pole `s`. -/
  adapt : ℝ → Ctl → C → C
  /-- One frame of one channel. -/
  run : C → D → ℝ → D × ℝ

/-- `std::min<double>(20000.0, std::max<double>(1.0, double(fHslider0)))`
(for instance `sfzLpf1p.hxx:116`). -/
noncomputable def clampHz (f : ℝ) : ℝ := min 20000 (max 1 f)

/-- `std::pow(10.0, 0.05 * min(60, max(-60, q)))`, the resonance as a linear gain
(for instance `sfzLpf2p.hxx:147`). -/
noncomputable def linQ (q : ℝ) : ℝ := (10 : ℝ) ^ ((1 / 20 : ℝ) * min 60 (max (-60) q))

/-- `std::pow(10.0, 0.025 * min(60, max(-120, g)))`, the amplitude parameter of the peak and
shelf filters (for instance `sfzPeq.hxx`, `fSlow4`). -/
noncomputable def ampl (g : ℝ) : ℝ := (10 : ℝ) ^ ((1 / 40 : ℝ) * min 60 (max (-120) g))

/-- `fConst1 * std::max<double>(0.0, clamped cutoff)` with `fConst1 = 2π / fs`
(`sfzLpf2p.hxx:75`, `:145`). -/
noncomputable def angle (fs f : ℝ) : ℝ := 2 * π / fs * max 0 (clampHz f)

/-- `max(0.001, 0.5 / sinh((π log 2 / fs) * (f * bw) / sin(2π f / fs)))`, the quality factor
of the equalizer bands (`sfzEqPeak.hxx`, `fSlow5`). -/
noncomputable def bandQ (fs f bw : ℝ) : ℝ :=
  max (1 / 1000)
    ((1 / 2) / sinh (π * log 2 / fs *
      ((clampHz f * min 12 (max (1 / 100) bw)) / sin (2 * π / fs * clampHz f))))

/-! ### Second-order sections -/

/-- Normalised coefficients of a second-order section. -/
structure Coefs where
  b0 : ℝ
  b1 : ℝ
  b2 : ℝ
  a1 : ℝ
  a2 : ℝ

/-- `fRec[0] = fSlow5 * fRec[1] + target * (1 - fSlow5)` (`sfzLpf2p.hxx:150-166`). -/
def mix (s prev target : ℝ) : ℝ := s * prev + target * (1 - s)

/-- The five coefficient updates of one frame. -/
def Coefs.mix (s : ℝ) (prev target : Coefs) : Coefs where
  b0 := Filter.mix s prev.b0 target.b0
  b1 := Filter.mix s prev.b1 target.b1
  b2 := Filter.mix s prev.b2 target.b2
  a1 := Filter.mix s prev.a1 target.a1
  a2 := Filter.mix s prev.a2 target.a2

/-- The memory of one section: `fVec0[1]`, `fVec1[1]`, `fVec2[1]` and `fRec0[1]`
(`sfzLpf2p.hxx:169-177`; `fRec1` always equals `fRec0`). -/
structure Delay where
  v0 : ℝ
  v1 : ℝ
  v2 : ℝ
  y : ℝ

/-- One frame of one section (`sfzLpf2p.hxx:157-168`, the same lines in every second-order
filter). -/
def sect (c : Coefs) (d : Delay) (x : ℝ) : Delay × ℝ :=
  let v2 := d.v1 - c.a2 * d.y
  let y := (d.v0 + (x * c.b0 + d.v2)) - c.a1 * d.y
  (⟨x * c.b1, x * c.b2, v2, y⟩, y)

/-- Sections in series under the same coefficients: the 4-pole and 6-pole filters
(`sfzLpf4p.hxx`, `compute`: the output `fRec3[0]` of the first section is the input of the
second). -/
def cascade (c : Coefs) : List Delay → ℝ → List Delay × ℝ
  | [], x => ([], x)
  | d :: ds, x =>
    let r := sect c d x
    let t := cascade c ds r.2
    (r.1 :: t.1, t.2)

/-- The second-order filter types of `SFZ_EACH_FILTER` and `SFZ_EACH_EQ`
(`SfzFilterImpls.hpp:214-246`); the number of sections is 1, 2, 3 for `_2p`, `_4p`, `_6p`. -/
inductive Shape
  | lpf | hpf | bpf | brf | peq | lsh | hsh | eqPeak | eqLshelf | eqHshelf
  deriving DecidableEq

/-- Low-pass coefficients: `fSlow4 = (1 - cos) / (alpha + 1)` is the middle one, half of it
the outer ones (`sfzLpf2p.hxx:145-155`). -/
noncomputable def lpfCoefs (w Q : ℝ) : Coefs :=
  let al := 1 / 2 * (sin w / Q)
  ⟨1 / 2 * ((1 - cos w) / (al + 1)), (1 - cos w) / (al + 1), 1 / 2 * ((1 - cos w) / (al + 1)),
    (0 - 2 * cos w) / (al + 1), (1 - al) / (al + 1)⟩

/-- High-pass coefficients (`sfzHpf2p.hxx`, `fSlow6`..`fSlow9`). -/
noncomputable def hpfCoefs (w Q : ℝ) : Coefs :=
  let al := 1 / 2 * (sin w / Q)
  ⟨1 / 2 * ((cos w + 1) / (al + 1)), (-1 - cos w) / (al + 1), 1 / 2 * ((cos w + 1) / (al + 1)),
    (0 - 2 * cos w) / (al + 1), (1 - al) / (al + 1)⟩

/-- Band-pass coefficients (`sfzBpf2p.hxx`, `fSlow6`..`fSlow11`; the middle one has target 0:
`fRec2[0] = fSlow0 * fRec2[1]`). -/
noncomputable def bpfCoefs (w Q : ℝ) : Coefs :=
  let al := 1 / 2 * (sin w / Q)
  let k := 1 / 2 * (sin w / (Q * (al + 1)))
  ⟨k, 0, 0 - k, (0 - 2 * cos w) / (al + 1), (1 - al) / (al + 1)⟩

/-- Band-reject coefficients (`sfzBrf2p.hxx`, `fSlow5`..`fSlow7`). -/
noncomputable def brfCoefs (w Q : ℝ) : Coefs :=
  let al := 1 / 2 * (sin w / Q)
  ⟨1 / (al + 1), (0 - 2 * cos w) / (al + 1), 1 / (al + 1),
    (0 - 2 * cos w) / (al + 1), (1 - al) / (al + 1)⟩

/-- Peak coefficients (`sfzPeq.hxx`, `fSlow5`..`fSlow12`; `sfzEqPeak.hxx`,
`fSlow6`..`fSlow13`). -/
noncomputable def peqCoefs (w Q A : ℝ) : Coefs :=
  let al := 1 / 2 * (sin w / (Q * A))
  let be := 1 / 2 * ((A * sin w) / Q)
  ⟨(be + 1) / (al + 1), (0 - 2 * cos w) / (al + 1), (1 - be) / (al + 1),
    (0 - 2 * cos w) / (al + 1), (1 - al) / (al + 1)⟩

/-- Low-shelf coefficients (`sfzLsh.hxx`, `fSlow4`..`fSlow14`; `sfzEqLshelf.hxx`,
`fSlow5`..`fSlow15`). -/
noncomputable def lshCoefs (w Q A : ℝ) : Coefs :=
  let t4 := (A + 1) * cos w
  let t5 := (A + -1) * cos w
  let t6 := (sqrt A * sin w) / Q
  let t7 := t5 + t6
  let t8 := (A + t7) + 1
  ⟨(A * ((A + t6) + (1 - t5))) / t8, 2 * ((A * (A + (-1 - t4))) / t8),
    (A * (A + (1 - t7))) / t8,
    (0 - 2 * ((A + t4) + -1)) / t8, ((A + t5) + (1 - t6)) / t8⟩

/-- High-shelf coefficients (`sfzHsh.hxx`, `fSlow4`..`fSlow14`; `sfzEqHshelf.hxx`,
`fSlow5`..`fSlow15`). -/
noncomputable def hshCoefs (w Q A : ℝ) : Coefs :=
  let t4 := (A + 1) * cos w
  let t5 := (sqrt A * sin w) / Q
  let t6 := (A + -1) * cos w
  let t7 := (A + t5) + (1 - t6)
  let t10 := t6 + t5
  ⟨(A * ((A + t10) + 1)) / t7, ((0 - 2 * A) * ((A + t4) + -1)) / t7,
    (A * ((A + t6) + (1 - t5))) / t7,
    2 * ((A + (-1 - t4)) / t7), (A + (1 - t10)) / t7⟩

/-- The coefficients a filter aims at under given controls (the `fSlow` lines of `compute`).
The quality factor of the resonant filters is `max(0.001, 10^(q/20))`. -/
noncomputable def target (k : Shape) (fs : ℝ) (p : Ctl) : Coefs :=
  match k with
  | .lpf => lpfCoefs (angle fs p.cutoff) (max (1 / 1000) (linQ p.q))
  | .hpf => hpfCoefs (angle fs p.cutoff) (max (1 / 1000) (linQ p.q))
  | .bpf => bpfCoefs (angle fs p.cutoff) (max (1 / 1000) (linQ p.q))
  | .brf => brfCoefs (angle fs p.cutoff) (max (1 / 1000) (linQ p.q))
  | .peq => peqCoefs (angle fs p.cutoff) (max (1 / 1000) (linQ p.q)) (ampl p.gain)
  | .lsh => lshCoefs (angle fs p.cutoff) (max (1 / 1000) (linQ p.q)) (ampl p.gain)
  | .hsh => hshCoefs (angle fs p.cutoff) (max (1 / 1000) (linQ p.q)) (ampl p.gain)
  | .eqPeak => peqCoefs (angle fs p.cutoff) (bandQ fs p.cutoff p.q) (ampl p.gain)
  | .eqLshelf => lshCoefs (angle fs p.cutoff) (bandQ fs p.cutoff p.q) (ampl p.gain)
  | .eqHshelf => hshCoefs (angle fs p.cutoff) (bandQ fs p.cutoff p.q) (ampl p.gain)

/-- A second-order filter with `n` sections at sample rate `fs`. -/
noncomputable def biquad (k : Shape) (n : ℕ) (fs : ℝ) : Dsp Coefs (List Delay) where
  c0 := ⟨0, 0, 0, 0, 0⟩
  d0 := List.replicate n ⟨0, 0, 0, 0⟩
  adapt s p c := c.mix s (target k fs p)
  run := cascade

/-! ### First-order filters -/

/-- The first-order filter types. -/
inductive Pole
  | lpf1p | hpf1p | bpf1p | apf1p | brf1p
  deriving DecidableEq

/-- The one coefficient: `exp((1/fs) * (0 - 2π * cutoff))` (`sfzLpf1p.hxx:116`, also
`sfzHpf1p.hxx`, `sfzBpf1p.hxx`), or `(2π/fs) * cutoff - 1` (`sfzApf1p.hxx`,
`sfzBrf1p.hxx`). -/
noncomputable def poleTarget (k : Pole) (fs : ℝ) (p : Ctl) : ℝ :=
  match k with
  | .lpf1p | .hpf1p | .bpf1p => exp (1 / fs * (0 - 2 * π * clampHz p.cutoff))
  | .apf1p | .brf1p => 2 * π / fs * clampHz p.cutoff + -1

/-- The memory of a first-order filter: `fRec1[1]` (the first accumulator) and `fRec0[1]` (the
second, used by the two composite types only). -/
structure Acc where
  r : ℝ
  t : ℝ

/-- One frame of one channel: `sfzLpf1p.hxx:117-124`, `sfzHpf1p.hxx`, `sfzBpf1p.hxx`,
`sfzApf1p.hxx`, `sfzBrf1p.hxx`, loop bodies of `compute`. -/
noncomputable def poleRun (k : Pole) (p : ℝ) (d : Acc) (x : ℝ) : Acc × ℝ :=
  match k with
  | .lpf1p =>
    let r := x + p * d.r
    (⟨r, 0⟩, r * (1 - p))
  | .hpf1p =>
    let r := x + p * d.r
    (⟨r, 0⟩, 1 / 2 * (r * (p + 1)) + d.r * (0 - 1 / 2 * (p + 1)))
  | .bpf1p =>
    let r := x + p * d.r
    let t := r * (1 - p) + p * d.t
    (⟨r, t⟩, 1 / 2 * (t * (p + 1)) + d.t * (0 - 1 / 2 * (p + 1)))
  | .apf1p =>
    let r := x - p * d.r
    (⟨r, 0⟩, d.r + p * r)
  | .brf1p =>
    let r := x - p * d.r
    let t := d.r + p * (r - d.t)
    (⟨r, t⟩, x + (d.t + p * t))

/-- A first-order filter at sample rate `fs`. -/
noncomputable def onePole (k : Pole) (fs : ℝ) : Dsp ℝ Acc where
  c0 := 0
  d0 := ⟨0, 0⟩
  adapt s p c := mix s c (poleTarget k fs p)
  run := poleRun k

/-! ### State-variable filters -/

/-- The state-variable filter types. -/
inductive SvKind
  | lpf | hpf | bpf | brf
  deriving DecidableEq

/-- The smoothed coefficients `fRec3`, `fRec4`, `fRec5` of `sfzLpf2pSv.hxx`. -/
structure SvCoefs where
  g : ℝ
  al : ℝ
  fb : ℝ

/-- The memory: `fRec2[1]` and `fRec1[1]` of `sfzLpf2pSv.hxx`. -/
structure SvMem where
  s1 : ℝ
  s2 : ℝ

/-- The coefficient updates of one frame (`sfzLpf2pSv.hxx`, `fSlow2`, `fSlow3` and the lines
for `fRec3[0]`, `fRec4[0]`, `fRec5[0]`): the second and third are computed from the already
smoothed first. -/
noncomputable def svAdapt (fs s : ℝ) (p : Ctl) (c : SvCoefs) : SvCoefs :=
  let g := mix s c.g (tan (π / fs * clampHz p.cutoff))
  let t1 := 1 / linQ p.q + g
  ⟨g, s * c.al + (1 - s) / (g * t1 + 1), s * c.fb + (1 - s) * t1⟩

/-- One frame of one channel (`sfzLpf2pSv.hxx`, `fTemp2` to `fRec2[0]`; `sfzHpf2pSv.hxx`,
`sfzBpf2pSv.hxx`, `sfzBrf2pSv.hxx` differ in the output line only). -/
def svRun (k : SvKind) (c : SvCoefs) (d : SvMem) (x : ℝ) : SvMem × ℝ :=
  let t2 := x - (d.s2 + c.fb * d.s1)
  let hp := c.al * t2
  let t3 := (c.g * c.al) * t2
  let t4 := d.s1 + 2 * t3
  let lp := d.s2 + c.g * t4
  let t5 := d.s1 + t3
  (⟨t4, d.s2 + 2 * (c.g * t5)⟩,
    match k with
    | .lpf => lp
    | .hpf => hp
    | .bpf => t5
    | .brf => lp + hp)

/-- A state-variable filter at sample rate `fs`. -/
noncomputable def stateVar (k : SvKind) (fs : ℝ) : Dsp SvCoefs SvMem where
  c0 := ⟨0, 0, 0⟩
  d0 := ⟨0, 0⟩
  adapt := svAdapt fs
  run := svRun k

/-! ### Pink filter -/

/-- The memory of the pink filter, `fRec0[1..3]` of `sfzPink.hxx`. -/
structure PinkMem where
  r1 : ℝ
  r2 : ℝ
  r3 : ℝ

/-- One frame of one channel (`sfzPink.hxx`, loop body of `compute`). -/
noncomputable def pinkRun (_ : Unit) (d : PinkMem) (x : ℝ) : PinkMem × ℝ :=
  let r := (x + (2.494956002 * d.r1 + 0.5221894 * d.r3)) - 2.017265875 * d.r2
  (⟨r, d.r1, d.r2⟩,
    (0.049922035 * r + 0.050612699 * d.r2) - (0.095993537 * d.r1 + 0.004408786 * d.r3))

/-- The pink filter: no control, fixed coefficients. -/
noncomputable def pink : Dsp Unit PinkMem where
  c0 := ()
  d0 := ⟨0, 0, 0⟩
  adapt _ _ _ := ()
  run := pinkRun

/-! ### The wrapper of `SfzFilter.cpp` -/

/-- The contents of a filter object: the coefficients, and one memory for each channel (the
`2ch` classes share the smoothed coefficients between their two channels:
`sfz2chLpf2p.hxx`, `compute`). -/
structure St (C D : Type) where
  c : C
  ds : List D

/-- One frame across the channels: input samples `xs`, one for each channel. -/
def chans {C D : Type} (F : Dsp C D) (c : C) : List D → List ℝ → List D × List ℝ
  | d :: ds, x :: xs =>
    let r := F.run c d x
    let t := chans F c ds xs
    (r.1 :: t.1, r.2 :: t.2)
  | ds, _ => (ds, [])

/-- One frame of `compute`: coefficients first, then every channel. -/
def frame {C D : Type} (F : Dsp C D) (s : ℝ) (p : Ctl) (st : St C D) (xs : List ℝ) :
    St C D × List ℝ :=
  let c := F.adapt s p st.c
  let r := chans F c st.ds xs
  (⟨c, r.1⟩, r.2)

/-- `compute(count, inputs, outputs)` under fixed controls. -/
def compute {C D : Type} (F : Dsp C D) (s : ℝ) (p : Ctl) (st : St C D) :
    List (List ℝ) → St C D × List (List ℝ)
  | [] => (st, [])
  | x :: xs =>
    let r := frame F s p st x
    let t := compute F s p r.1 xs
    (t.1, r.2 :: t.2)

/-- `instanceClear` (for instance `sfzLpf2p.hxx:88-118`). -/
def cleared {C D : Type} (F : Dsp C D) (channels : ℕ) : St C D :=
  ⟨F.c0, List.replicate channels F.d0⟩

/-- `Filter::prepare` (`SfzFilter.cpp:75-96`; `FilterEq::prepare`, `:276-297`): clear, then one
frame of silence with smoothing off. -/
def prepare {C D : Type} (F : Dsp C D) (p : Ctl) (channels : ℕ) : St C D :=
  (frame F 0 p (cleared F channels) (List.replicate channels 0)).1

/-- `config::filterControlInterval` (`Config.h:86`). -/
def interval : ℕ := 16

/-- `Filter::processModulated` (`SfzFilter.cpp:113-145`; `FilterEq::processModulated`,
`:315-347`): chunks of at most `interval` frames, each computed under the controls found at its
first frame.  `ctl` are the three control curves of the block, by frame.  The fuel is the number
of frames (each chunk is at least one frame long). -/
def modulatedFuel {C D : Type} (F : Dsp C D) (s : ℝ) :
    ℕ → (ℕ → Ctl) → St C D → List (List ℝ) → St C D × List (List ℝ)
  | 0, _, st, _ => (st, [])
  | _ + 1, _, st, [] => (st, [])
  | n + 1, ctl, st, x :: xs =>
    let r := compute F s (ctl 0) st ((x :: xs).take interval)
    let t := modulatedFuel F s n (fun i => ctl (i + interval)) r.1 ((x :: xs).drop interval)
    (t.1, r.2 ++ t.2)

/-- See `modulatedFuel`. -/
def modulated {C D : Type} (F : Dsp C D) (s : ℝ) (ctl : ℕ → Ctl) (st : St C D)
    (xs : List (List ℝ)) : St C D × List (List ℝ) :=
  modulatedFuel F s xs.length ctl st xs

/-- The contents of `FilterHolder` and `EQHolder` (`FilterPool.h`, `EQPool.h`) while a voice
plays: the filter and whether it was prepared since `setup`. -/
structure Holder (C D : Type) where
  st : St C D
  prepared : Bool

/-- `FilterHolder::process` with the control curves already computed
(`FilterPool.cpp:62-111`): the first block after `setup` prepares the filter with the controls
of its first frame.  A block of no frames returns at once. -/
def Holder.process {C D : Type} (F : Dsp C D) (s : ℝ) (h : Holder C D) (ctl : ℕ → Ctl)
    (xs : List (List ℝ)) : Holder C D × List (List ℝ) :=
  match xs with
  | [] => (h, [])
  | xs =>
    let st := if h.prepared then h.st else prepare F (ctl 0) h.st.ds.length
    let r := modulated F s ctl st xs
    (⟨r.1, true⟩, r.2)

/-- `FilterHolder::setup` as far as the filter is concerned (`FilterPool.cpp:24-60`): same type
and channel count, so nothing but the flag changes. -/
def Holder.setup {C D : Type} (h : Holder C D) : Holder C D := { h with prepared := false }

/-! ### One channel over an unbounded time -/

/-- The coefficients after `prepare` under controls `p`. -/
def settled {C D : Type} (F : Dsp C D) (p : Ctl) : C := F.adapt 0 p F.c0

/-- The memory of one channel after `n` frames of the signal `x`, under constant controls,
starting from the memory left by `prepare`. -/
def mem {C D : Type} (F : Dsp C D) (p : Ctl) (x : ℕ → ℝ) : ℕ → D
  | 0 => F.d0
  | n + 1 => (F.run (settled F p) (mem F p x n) (x n)).1

/-- Sample `n` of the output of one channel fed the signal `x` from the moment the note
starts, under constant controls. -/
def out {C D : Type} (F : Dsp C D) (p : Ctl) (x : ℕ → ℝ) (n : ℕ) : ℝ :=
  (F.run (settled F p) (mem F p x n) (x n)).2

end Verif.Filter
