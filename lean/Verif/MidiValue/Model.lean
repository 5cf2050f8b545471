import Verif.Float32.Model
import Verif.Layer.Model
import Verif.Opcode.Model

/-!
MIDI numbers as the library sees them: the conversion of the integers of the MIDI calls and of the numbers of the opcodes to
`float` (`src/sfizz/SfzHelpers.h`, `Defaults.h`, `Defaults.cpp`), and the bounds of a region made of them (`Region.cpp`).
All arithmetic is rounded as `float` (`Verif.Float32`).

The numbers of the opcodes are taken after the text has been read as the nearest `float` (`readLeadingFloat`).
-/
namespace Verif.MidiValue

open Verif.Float32 Verif.Range

/-- `normalize7Bits` for integers (SfzHelpers.h:134-138): what `noteOn`, `noteOff`, `cc`, `channelAftertouch` and
`polyAftertouch` make of their value (Synth.cpp:1254, 1273, 1425, 1564, 1588). -/
def normalize7Bits (v : ℤ) : ℚ := fl (fl ((min (max v 0) 127 : ℤ) : ℚ) / 127)

/-- `normalizeBend` of the integer given to `pitchWheel` (SfzHelpers.h:188-198, Synth.cpp:1531). -/
def normalizeBend (v : ℤ) : ℚ := fl (max (min (fl (v : ℚ)) 8191) (-8191) / 8191)

/-- The flags of a setting which say how its number is scaled (Defaults.h:50-64); `kDb2Mag` is left out. -/
structure Flags where
  percent : Bool := false
  midi : Bool := false
  bend : Bool := false
  fillGap : Bool := false

/-- `OpcodeSpec::normalizeInput` for `float` (Defaults.h:86-114). -/
def normalizeInput (f : Flags) (x : ℚ) : ℚ :=
  if f.percent then fl (x / 100)
  else if f.midi then
    if f.fillGap && decide (x ≤ 126) && decide (0 ≤ x) then below (fl (fl (x + 1) / 127)) else fl (x / 127)
  else if f.bend then fl (x / 8191)
  else x

/-- `OpcodeSpec::denormalizeInput` for `float` (Defaults.h:138-160). -/
def denormalizeInput (f : Flags) (x : ℚ) : ℚ :=
  if f.percent then fl (x * 100)
  else if f.midi then (if 0 ≤ fl (x * 127) then ⌊fl (x * 127)⌋ else ⌈fl (x * 127)⌉ : ℤ)
  else if f.bend then fl (x * 8191)
  else x

/-- A setting: bounds, default and flags (Defaults.h:66-71). -/
structure Setting where
  dflt : ℚ
  spec : Opcode.Spec ℚ
  flags : Flags

/-- `kPermissiveBounds` with the bounds given. -/
def permissive (lo hi : ℚ) : Opcode.Spec ℚ :=
  { lo := lo, hi := hi, dflt := 0, permissiveLower := true, permissiveUpper := true }

/-- `loVel`, `loCC`, `loChannelAftertouch`, `loPolyAftertouch` (Defaults.cpp:51, 57, 59, 61). -/
def loMidi : Setting := ⟨0, permissive 0 127, { midi := true }⟩

/-- `hiVel`, `hiCC`, `hiChannelAftertouch`, `hiPolyAftertouch` (Defaults.cpp:52, 58, 60, 62). -/
def hiMidi : Setting := ⟨127, permissive 0 127, { midi := true, fillGap := true }⟩

/-- `loBend` (Defaults.cpp:63). -/
def loBend : Setting := ⟨-8191, permissive (-8192) 8191, { bend := true }⟩

/-- `hiBend` (Defaults.cpp:64). -/
def hiBend : Setting := ⟨8191, permissive (-8192) 8191, { bend := true, fillGap := true }⟩

/-- `sustainThreshold`, `sostenutoThreshold` (Defaults.cpp:77-78). -/
def threshold : Setting := ⟨1, permissive 0 127, { midi := true }⟩

/-- `amplitude` (Defaults.cpp:86); `pan`, `position`, `width`, `ampVeltrack` differ in their bounds only, which do not count. -/
def amplitude : Setting := ⟨100, permissive 0 10000, { percent := true }⟩

/-- The value of a setting nobody has set: `operator T` (Defaults.h:129). -/
def Setting.default (s : Setting) : ℚ := normalizeInput s.flags s.dflt

/-- `opcode.read(spec)` once the text has been read as the number `x` (Opcode.h:122, Opcode.cpp:212-243). -/
def Setting.read (s : Setting) (x : ℚ) : ℚ :=
  (Opcode.transformFloat s.spec false (normalizeInput s.flags) x).getD s.default

/-- The opcodes about MIDI values, with the number written. -/
inductive Opc where
  | lovel (z : ℚ) | hivel (z : ℚ)
  | lobend (z : ℚ) | hibend (z : ℚ)
  | locc (n : ℕ) (z : ℚ) | hicc (n : ℕ) (z : ℚ)
  | startLocc (n : ℕ) (z : ℚ) | startHicc (n : ℕ) (z : ℚ)
  | lochanaft (z : ℚ) | hichanaft (z : ℚ)
  | lopolyaft (z : ℚ) | hipolyaft (z : ℚ)
  | sustainLo (z : ℚ) | sostenutoLo (z : ℚ)

/-- The range a controller gets when it is first mentioned (Region.h:282, 313). -/
def ccRange : R ℚ := ⟨loMidi.default, hiMidi.default⟩

/-- `Region::parseOpcode` for these opcodes (Region.cpp:233-266, 339-363, 387-402); numbers are read as `float`. -/
def apply (r : Layer.Region) : Opc → Layer.Region
  | .lovel z => { r with velocityRange := setStart false r.velocityRange (loMidi.read (fl z)) }
  | .hivel z => { r with velocityRange := setEnd false r.velocityRange (hiMidi.read (fl z)) }
  | .lobend z => { r with bendRange := setStart false r.bendRange (loBend.read (fl z)) }
  | .hibend z => { r with bendRange := setEnd false r.bendRange (hiBend.read (fl z)) }
  | .locc n z =>
    if n ≥ 512 then r
    else
      let c := setStart false ((r.ccConditions n).getD ccRange) (loMidi.read (fl z))
      { r with ccConditions := Midi.upd r.ccConditions n (some c) }
  | .hicc n z =>
    if n ≥ 512 then r
    else
      let c := setEnd false ((r.ccConditions n).getD ccRange) (hiMidi.read (fl z))
      { r with ccConditions := Midi.upd r.ccConditions n (some c) }
  | .startLocc n z =>
    if n ≥ 512 then r
    else
      let c := setStart false ((r.ccTriggers n).getD ccRange) (loMidi.read (fl z))
      { r with triggerOnCC := true, ccTriggers := Midi.upd r.ccTriggers n (some c) }
  | .startHicc n z =>
    if n ≥ 512 then r
    else
      let c := setEnd false ((r.ccTriggers n).getD ccRange) (hiMidi.read (fl z))
      { r with triggerOnCC := true, ccTriggers := Midi.upd r.ccTriggers n (some c) }
  | .lochanaft z => { r with aftertouchRange := setStart false r.aftertouchRange (loMidi.read (fl z)) }
  | .hichanaft z => { r with aftertouchRange := setEnd false r.aftertouchRange (hiMidi.read (fl z)) }
  | .lopolyaft z => { r with polyAftertouchRange := setStart false r.polyAftertouchRange (loMidi.read (fl z)) }
  | .hipolyaft z => { r with polyAftertouchRange := setEnd false r.polyAftertouchRange (hiMidi.read (fl z)) }
  | .sustainLo z => { r with sustainThreshold := threshold.read (fl z) }
  | .sostenutoLo z => { r with sostenutoThreshold := threshold.read (fl z) }

/-- A region before its opcodes (Region.h:277-313). -/
def fresh : Layer.Region :=
  { velocityRange := ⟨loMidi.default, hiMidi.default⟩
    bendRange := ⟨loBend.default, hiBend.default⟩
    aftertouchRange := ⟨loMidi.default, hiMidi.default⟩
    polyAftertouchRange := ⟨loMidi.default, hiMidi.default⟩
    sustainThreshold := threshold.default
    sostenutoThreshold := threshold.default }

/-- The region of a list of opcodes. -/
def build (ops : List Opc) : Layer.Region := ops.foldl apply fresh

/-- `Curve::evalNormalized` (Curve.h:36-51) with the arithmetic of `float`; `points` are the 128 values of the curve. -/
def evalNormalized (points : ℕ → ℚ) (value : ℚ) : ℚ :=
  let v := max (min (fl (value * 127)) 127) 0
  let i1 := ⌊v⌋.toNat
  let i2 := min 127 (i1 + 1)
  let mu := fl (v - fl i1)
  fl (points i1 + fl (mu * fl (points i2 - points i1)))

end Verif.MidiValue
