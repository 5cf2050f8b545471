import Mathlib.Analysis.SpecialFunctions.Trigonometric.Basic
import Mathlib.Analysis.SpecialFunctions.Pow.Real
import Mathlib.Algebra.Order.Floor.Ring

/-!
# The reverb

The effect `fverb`: what the opcodes set, and what it does to each frame.

Modelled: `/repo/src/sfizz/effects/Fverb.cpp:39-250` and `/repo/src/sfizz/effects/gen/fverb.hxx:34-720`
(the constants, the clearing and the whole of `compute`).

Simplified: arithmetic is exact (the literals are taken as written in the source).  A delay line is a
function from the age of a sample to its value; the ring of 131072 places it is kept in is `Ring`
below, and `ring_reads` in `Props.lean` relates the two.  As the memory lasts from block to
block, a run of blocks is one stream of frames, counted from the last `clear`.  The sums of three or
four terms are associated differently, which exact arithmetic does not see.
-/

namespace Verif.Reverb

/-- A delay line: the value written so many frames ago; age 0 is the latest. -/
abbrev Line := ℕ → ℝ

/-- Write the next value into a line. -/
def push (v : ℝ) (l : Line) : Line
  | 0 => v
  | k + 1 => l k

/-- `int(x)`: towards zero. -/
noncomputable def trunc (x : ℝ) : ℤ := if 0 ≤ x then ⌊x⌋ else ⌈x⌉

/-- `std::min<int>(65536, std::max<int>(0, i))`. -/
def clip (i : ℤ) : ℕ := (min 65536 (max 0 i)).toNat

/-- One value for each of the thirteen sliders: the sliders themselves (fverb.hxx:104-163), the
`fSlow` values derived from them (fverb.hxx:505-517), or the smoothed values in use. -/
structure Knobs where
  dry : ℝ
  wet : ℝ
  decay : ℝ
  input : ℝ
  predelay : ℝ
  lowpass : ℝ
  highpass : ℝ
  diffusion1 : ℝ
  diffusion2 : ℝ
  density : ℝ
  depth : ℝ
  freq : ℝ
  damping : ℝ

/-- All knobs at zero (fverb.hxx:287-481). -/
def Knobs.zero : Knobs := ⟨0, 0, 0, 0, 0, 0, 0, 0, 0, 0, 0, 0, 0⟩

/-- The pole of a filter with cutoff `f` (Hz), times `0.001` (fverb.hxx:510). -/
noncomputable def slowPole (fs : ℕ) (f : ℝ) : ℝ :=
  0.00100000005 * Real.exp ((1 / (fs : ℝ)) * (0 - 6.28318548 * f))

/-- `fSlow0` … `fSlow12` (fverb.hxx:505-517). -/
noncomputable def slow (fs : ℕ) (s : Knobs) : Knobs where
  dry := 9.99999975e-06 * s.dry
  wet := 9.99999975e-06 * s.wet
  decay := 9.99999975e-06 * s.decay
  input := 9.99999975e-06 * s.input
  predelay := 9.99999997e-07 * s.predelay
  lowpass := slowPole fs s.lowpass
  highpass := slowPole fs s.highpass
  diffusion1 := 9.99999975e-06 * s.diffusion1
  diffusion2 := 9.99999975e-06 * s.diffusion2
  density := 9.99999975e-06 * s.density
  depth := 9.99999997e-07 * s.depth
  freq := 0.00100000005 * s.freq
  damping := slowPole fs s.damping

/-- `fRec0[0] = fSlow0 + 0.999000013f * fRec0[1]` (fverb.hxx:521). -/
noncomputable def smooth (s r : ℝ) : ℝ := s + 0.999000013 * r

/-- The same for all thirteen knobs (fverb.hxx:521-573). -/
noncomputable def Knobs.step (s r : Knobs) : Knobs where
  dry := smooth s.dry r.dry
  wet := smooth s.wet r.wet
  decay := smooth s.decay r.decay
  input := smooth s.input r.input
  predelay := smooth s.predelay r.predelay
  lowpass := smooth s.lowpass r.lowpass
  highpass := smooth s.highpass r.highpass
  diffusion1 := smooth s.diffusion1 r.diffusion1
  diffusion2 := smooth s.diffusion2 r.diffusion2
  density := smooth s.density r.density
  depth := smooth s.depth r.depth
  freq := smooth s.freq r.freq
  damping := smooth s.damping r.damping

/-- A delay of `t` seconds in frames, one less for the memory that follows (`iConst2`, fverb.hxx:236). -/
noncomputable def combLen (fs : ℕ) (t : ℝ) : ℕ := min 65536 (⌊t * fs⌋₊ - 1)

/-- A delay of `t` seconds in frames (`iConst9`, fverb.hxx:243). -/
noncomputable def lineLen (fs : ℕ) (t : ℝ) : ℕ := min 65536 ⌊t * fs⌋₊

/-- How many frames a change of a modulated delay takes (fverb.hxx:241). -/
noncomputable def fadeLen (fs : ℕ) : ℕ := ⌊(0.00999999978 : ℝ) * fs⌋₊

/-- A comb: its line and the value that left it (`fVec1` and `fRec20`). -/
structure Comb where
  line : Line
  mem : ℝ

/-- An empty comb. -/
def Comb.zero : Comb := ⟨fun _ => 0, 0⟩

/-- One frame of an all-pass comb (fverb.hxx:537-540); with `-g` for `g`, fverb.hxx:575-579. -/
def comb (g : ℝ) (len : ℕ) (x : ℝ) (c : Comb) : Comb × ℝ :=
  let t := x - g * c.mem
  let line := push t c.line
  (⟨line, line len⟩, g * t + c.mem)

/-- The change of a modulated delay: increment (`fRec31`), position (`fRec32`) and the two delays
(`iRec33` and `iRec34`). -/
structure Fade where
  inc : ℝ
  pos : ℝ
  a : ℤ
  b : ℤ

/-- No delay. -/
def Fade.zero : Fade := ⟨0, 0, 0, 0⟩

open Classical in
/-- One frame of a change towards the delay `t` with increment `c` (fverb.hxx:562-566). -/
noncomputable def fade (c : ℝ) (t : ℤ) (f : Fade) : Fade :=
  let inc :=
    if f.inc ≠ 0 then (if 0 < f.pos ∧ f.pos < 1 then f.inc else 0)
    else if f.pos = 0 ∧ t ≠ f.a then c
    else if f.pos = 1 ∧ t ≠ f.b then 0 - c
    else 0
  { inc := inc
    pos := max 0 (min 1 (f.pos + inc))
    a := if 1 ≤ f.pos ∧ f.b ≠ t then t else f.a
    b := if f.pos ≤ 0 ∧ f.a ≠ t then t else f.b }

/-- What comes before the tank, for one channel: line, filters and four combs (`fVec0`, `fRec23`,
`fRec22`, `fVec1`-`fVec4`). -/
structure Pre where
  line : Line
  lp : ℝ
  hp : ℝ
  c1 : Comb
  c2 : Comb
  c3 : Comb
  c4 : Comb

/-- An empty one. -/
def Pre.zero : Pre := ⟨fun _ => 0, 0, 0, .zero, .zero, .zero, .zero⟩

/-- The lengths of the four combs. -/
structure Lens where
  d1 : ℕ
  d2 : ℕ
  d3 : ℕ
  d4 : ℕ

/-- One frame: predelay, low pass, high pass, four combs (fverb.hxx:526-552 and 582-599). -/
def Pre.step (k : Knobs) (pd : ℕ) (l : Lens) (x : ℝ) (p : Pre) : Pre × ℝ :=
  let line := push (x * k.input) p.line
  let lp := line pd + k.lowpass * p.lp
  let hp := lp * (1 - k.lowpass) + k.highpass * p.hp
  let x1 := 0.5 * (hp * (k.highpass + 1)) + p.hp * (0 - 0.5 * (k.highpass + 1))
  let r1 := comb k.diffusion1 l.d1 x1 p.c1
  let r2 := comb k.diffusion1 l.d2 r1.2 p.c2
  let r3 := comb k.diffusion2 l.d3 r2.2 p.c3
  let r4 := comb k.diffusion2 l.d4 r3.2 p.c4
  (⟨line, lp, hp, r1.1, r2.1, r3.1, r4.1⟩, r4.2)

/-- Half of the tank: the modulated comb and its delay (`fVec5`, `fRec12`), the line after it (`fVec6`),
the damping filter (`fRec11`), the second comb (`fVec7`, `fRec8`), and what is kept of the three
stages (`fRec4`, `fRec3`, `fRec2`). -/
structure Tank where
  tail : Comb
  fade : Fade
  mid : Line
  damp : ℝ
  comb : Comb
  outA : Line
  outB : Line
  outC : Line

/-- An empty half. -/
def Tank.zero : Tank := ⟨.zero, .zero, fun _ => 0, 0, .zero, fun _ => 0, fun _ => 0, fun _ => 0⟩

/-- `fTemp2`: the coefficient of the second comb (fverb.hxx:524). -/
noncomputable def diffusion (decay : ℝ) : ℝ := min 0.5 (max 0.25 (decay + 0.150000006))

/-- One frame of half of the tank, fed with `x` (fverb.hxx:555-581 and 601-621).  `c` is the increment
of a change of delay, `t` the delay asked for. -/
noncomputable def Tank.step (k : Knobs) (c : ℝ) (t : ℤ) (dMid dComb : ℕ) (x : ℝ) (s : Tank) : Tank :=
  let u := x + k.density * s.tail.mem
  let line := push u s.tail.line
  let f := Reverb.fade c t s.fade
  let y := line (clip f.a)
  let a := (0 - k.density * u) + s.tail.mem
  let mid := push a s.mid
  let damp := mid dMid + k.damping * s.damp
  let b := damp * (1 - k.damping)
  let r := Reverb.comb (-diffusion k.decay) dComb (k.decay * b) s.comb
  { tail := ⟨line, y + f.pos * (line (clip f.b) - y)⟩
    fade := f
    mid := mid
    damp := damp
    comb := r.1
    outA := push a s.outA
    outB := push b s.outB
    outC := push r.2 s.outC }

/-- All the memory of the effect. -/
structure State where
  knobs : Knobs
  phase : ℝ
  pre1 : Pre
  pre2 : Pre
  t1 : Tank
  t2 : Tank

/-- `instanceClear` (fverb.hxx:287-481). -/
def State.zero : State := ⟨.zero, 0, .zero, .zero, .zero, .zero⟩

/-- The table of a sine: place `i` of 65536 (fverb.hxx:74-80). -/
noncomputable def sine (i : ℤ) : ℝ := Real.sin (9.58738019e-05 * i)

/-- The two places of the table that are read for a phase (fverb.hxx:561 and 603). -/
noncomputable def place1 (phase : ℝ) : ℤ := trunc (65536 * (phase + (0.25 - trunc (phase + 0.25))))

/-- See `place1`. -/
noncomputable def place2 (phase : ℝ) : ℤ := trunc (65536 * phase)

/-- The modulated delays asked for, in frames (`iTemp13` and `iTemp24`, fverb.hxx:561 and 603). -/
noncomputable def target1 (fs : ℕ) (k : Knobs) (phase : ℝ) : ℤ :=
  trunc (fs * (k.depth * sine (place1 phase) + 0.0305097271)) - 1

/-- See `target1`. -/
noncomputable def target2 (fs : ℕ) (k : Knobs) (phase : ℝ) : ℤ :=
  trunc (fs * (k.depth * sine (place2 phase) + 0.025603978)) - 1

/-- The next phase of the modulation (fverb.hxx:559-560). -/
noncomputable def nextPhase (fs : ℕ) (k : Knobs) (phase : ℝ) : ℝ :=
  let t := phase + 1 / (fs : ℝ) * k.freq
  t - trunc t

/-- The lengths of the combs before the tank (fverb.hxx:236-239 and 245-248). -/
noncomputable def lens1 (fs : ℕ) : Lens :=
  ⟨combLen fs 0.00462820474, combLen fs 0.00370316859, combLen fs 0.013116831, combLen fs 0.00902825873⟩

/-- See `lens1`. -/
noncomputable def lens2 (fs : ℕ) : Lens :=
  ⟨combLen fs 0.00491448538, combLen fs 0.00348745007, combLen fs 0.0123527432, combLen fs 0.00958670769⟩

/-- One frame of `compute` without its output (fverb.hxx:518-621 and 624-663).  `fRec5` is read
`iConst6` frames back before it is written, `fRec2` is read `iConst15` frames back after it is
written; both constants are one more than a line length. -/
noncomputable def step (fs : ℕ) (s : Knobs) (st : State) (x : ℝ × ℝ) : State :=
  let k := (slow fs s).step st.knobs
  let pd := clip (trunc (fs * k.predelay))
  let p1 := st.pre1.step k pd (lens1 fs) x.2
  let phase := nextPhase fs k st.phase
  let c := 1 / (fadeLen fs : ℝ)
  let t1 := st.t1.step k c (target1 fs k phase) (lineLen fs 0.141695514) (combLen fs 0.0892443135)
    (p1.2 + k.decay * st.t2.outC (lineLen fs 0.106280029))
  let p2 := st.pre2.step k pd (lens2 fs) x.1
  let t2 := st.t2.step k c (target2 fs k phase) (lineLen fs 0.149625346) (combLen fs 0.0604818389)
    (p2.2 + k.decay * t1.outC (lineLen fs 0.124995798 + 1))
  ⟨k, phase, p1.1, p2.1, t1, t2⟩

/-- What one frame of `compute` puts out (fverb.hxx:622-623); `st` is the memory after the frame. -/
noncomputable def output (fs : ℕ) (st : State) (x : ℝ × ℝ) : ℝ × ℝ :=
  (x.1 * st.knobs.dry + 0.600000024 * (st.knobs.wet *
      ((st.t1.outA (lineLen fs 0.00893787201) + st.t1.outA (lineLen fs 0.099929437)
          + st.t1.outC (lineLen fs 0.067067638))
        - (st.t1.outB (lineLen fs 0.0642787516) + st.t2.outA (lineLen fs 0.0668660328)
          + st.t2.outB (lineLen fs 0.0062833908) + st.t2.outC (lineLen fs 0.0358186886)))),
    x.2 * st.knobs.dry + 0.600000024 * (st.knobs.wet *
      ((st.t2.outA (lineLen fs 0.0118611604) + st.t2.outA (lineLen fs 0.121870905)
          + st.t2.outC (lineLen fs 0.0898155272))
        - (st.t2.outB (lineLen fs 0.041262053) + st.t1.outA (lineLen fs 0.070931755)
          + st.t1.outB (lineLen fs 0.0112563418) + st.t1.outC (lineLen fs 0.00406572362)))))

/-- The memory before frame `n` of a stream, counted from a `clear`. -/
noncomputable def states (fs : ℕ) (s : Knobs) (x : ℕ → ℝ × ℝ) : ℕ → State
  | 0 => .zero
  | n + 1 => step fs s (states fs s x n) (x n)

/-- The frame `n` that the effect puts out. -/
noncomputable def process (fs : ℕ) (s : Knobs) (x : ℕ → ℝ × ℝ) (n : ℕ) : ℝ × ℝ :=
  output fs (states fs s x (n + 1)) (x n)

/-! ## Settings -/

/-- A kind of room (Fverb.cpp:42-49). -/
structure Profile where
  density : ℝ
  decay : ℝ
  freq : ℝ
  depth : ℝ
  dry : ℝ
  wet : ℝ

/-- The seven kinds of room (Fverb.cpp:67-122). -/
inductive Room where
  | largeRoom | midRoom | smallRoom | largeHall | midHall | smallHall | chamber
deriving DecidableEq

/-- What each kind of room sets (Fverb.cpp:67-122). -/
noncomputable def Room.profile : Room → Profile
  | .largeRoom => ⟨80, 65, 0.6, 0.5, 100, 60⟩
  | .midRoom => ⟨50, 50, 1.25, 0.5, 100, 60⟩
  | .smallRoom => ⟨20, 5, 1.5, 0.5, 100, 60⟩
  | .largeHall => ⟨80, 90, 0.275, 1.5, 100, 60⟩
  | .midHall => ⟨50, 75, 0.5, 1.5, 100, 60⟩
  | .smallHall => ⟨20, 50, 0.65, 1.5, 100, 60⟩
  | .chamber => ⟨80, 95, 0.85, 1.5, 100, 60⟩

/-- The values of the opcodes `reverb_type`, `reverb_dry`, `reverb_wet`, `reverb_input`, `reverb_size`,
`reverb_predelay`, `reverb_tone` and `reverb_damp` (Fverb.cpp:175-229). -/
structure Settings where
  room : Room
  dry : ℝ
  wet : ℝ
  input : ℝ
  size : ℝ
  predelay : ℝ
  tone : ℝ
  damp : ℝ

/-- The values that reading an opcode can give (Defaults.cpp:175 and 189-192). -/
structure Settings.Valid (s : Settings) : Prop where
  dry : 0 ≤ s.dry ∧ s.dry ≤ 100
  wet : 0 ≤ s.wet ∧ s.wet ≤ 100
  input : 0 ≤ s.input ∧ s.input ≤ 100
  size : 0 ≤ s.size ∧ s.size ≤ 100
  predelay : 0 ≤ s.predelay ∧ s.predelay ≤ 10
  tone : 0 ≤ s.tone ∧ s.tone ≤ 100
  damp : 0 ≤ s.damp ∧ s.damp ≤ 100

/-- `Impl::lpfCutoff` (Fverb.cpp:59-63). -/
noncomputable def lpfCutoff (x : ℝ) : ℝ :=
  440 * (2 : ℝ) ^ (((21 + max 0 (min 100 x) * 1.08) - 69) * (1 / 12) : ℝ)

/-- The sliders that `makeInstance` sets; the rest keep what `instanceResetUserInterface` gave them
(Fverb.cpp:231-247 and fverb.hxx:267-283). -/
noncomputable def Settings.knobs (s : Settings) : Knobs where
  predelay := s.predelay * 1e3
  density := s.room.profile.density
  decay := s.room.profile.decay * s.size * 0.01
    + s.room.profile.decay * 0.5 * (1 - s.size * 0.01)
  freq := s.room.profile.freq
  depth := s.room.profile.depth
  dry := s.room.profile.dry * s.dry * 0.01
  wet := s.room.profile.wet * s.wet * 0.01
  input := s.input
  lowpass := lpfCutoff s.tone
  damping := lpfCutoff (100 - 0.5 * s.damp)
  highpass := 100
  diffusion1 := 75
  diffusion2 := 62.5

/-! ## The ring that a line is kept in -/

/-- The ring of 131072 values (`fVec0[131072]`) and the frame counter `IOTA`, an `int` of 32 bits. -/
structure Ring where
  cells : ℕ → ℝ
  iota : BitVec 32

/-- A cleared ring (fverb.hxx:301-304). -/
def Ring.zero : Ring := ⟨fun _ => 0, 0⟩

/-- `fVec0[IOTA & 131071] = v` (fverb.hxx:526). -/
def Ring.write (v : ℝ) (r : Ring) : Ring :=
  { r with cells := fun i => if i = (r.iota &&& 131071#32).toNat then v else r.cells i }

/-- `fVec0[(IOTA - k) & 131071]` (fverb.hxx:530). -/
def Ring.read (k : ℕ) (r : Ring) : ℝ := r.cells ((r.iota - BitVec.ofNat 32 k) &&& 131071#32).toNat

/-- `IOTA = IOTA + 1` (fverb.hxx:628): no defined result once the counter is at its largest value. -/
def Ring.next (r : Ring) : Option Ring :=
  if r.iota.toNat + 1 < 2 ^ 31 then some { r with iota := r.iota + 1 } else none

end Verif.Reverb
