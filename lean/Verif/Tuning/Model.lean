import Mathlib.Analysis.SpecialFunctions.Log.Base
import Mathlib.Analysis.SpecialFunctions.Pow.Real

/-!
Model of microtuning: the reader of Scala files (/repo/src/external/tunings/src/Tunings.cpp:24-147), the tables of pitches
(Tunings.cpp:323-527), and the object that keeps scale, root key and reference frequency (/repo/src/sfizz/Tuning.cpp:19-257)
behind the calls `loadScalaFile`, `loadScalaString`, `setScalaRootKey`, `setTuningFrequency` and `shouldReloadScala` of the
engine (/repo/src/sfizz/Synth.cpp:984-1018, 2169-2173).

Doubles and floats are real numbers, with two further values for the results of `log2` outside of the positive numbers. The
numbers in a Scala file are exact. Keyboard mappings with a list of keys (`k.count > 0`) are not modelled: the engine never
makes one (Tuning.cpp:140-150). Paths are not modelled: the time of modification of a file is part of the call. The maximum of
64 tones is `MAX_CAPACITY`.
-/
namespace Verif.Tuning

abbrev Text := List Char

/-- How a piece of code ends: with a value, with a `TuningError`, or outside of what C++ defines. -/
inductive Outcome (α : Type) where
  | ok (a : α)
  | throws
  | undef
  deriving DecidableEq

/-! ### Reading Scala files -/

def isDigit (c : Char) : Bool := decide ('0' ≤ c) && decide (c ≤ '9')

/-- `isspace` in the C locale. -/
def isSpace (c : Char) : Bool :=
  c = ' ' || c = '\t' || c = '\n' || c = '\r' || c = Char.ofNat 11 || c = Char.ofNat 12

/-- The number that a list of digits denotes. -/
def digitsVal (ds : Text) : Nat := ds.foldl (fun a c => 10 * a + (c.toNat - 48)) 0

/-- A sign at the beginning: whether it is a minus, and the rest. -/
def sign : Text → Bool × Text
  | '-' :: s => (true, s)
  | '+' :: s => (false, s)
  | s => (false, s)

/-- `atoi`: not defined if the number does not fit an `int`. -/
def atoi (s : Text) : Option Int :=
  let (neg, r) := sign (s.dropWhile isSpace)
  let v : Int := digitsVal (r.takeWhile isDigit)
  let v := if neg then -v else v
  if -2147483648 ≤ v ∧ v ≤ 2147483647 then some v else none

/-- The exponent of a number: the text after the mantissa. `none`: an exponent without digits, which makes the reading fail. -/
def exponent : Text → Option Int
  | c :: s =>
    if c = 'e' ∨ c = 'E' then
      let (neg, r) := sign s
      let ds := r.takeWhile isDigit
      if ds = [] then none else some (if neg then -(digitsVal ds : Int) else digitsVal ds)
    else some 0
  | [] => some 0

/-- `locale_atof` (Tunings.cpp:24-31): the stream reads the longest text that looks like a number; the result is 0 if that is
not a number. -/
def atof (s : Text) : ℚ :=
  let (neg, r) := sign (s.dropWhile isSpace)
  let ip := r.takeWhile isDigit
  let r := r.dropWhile isDigit
  let (fp, r) := match r with
    | '.' :: r => (r.takeWhile isDigit, r.dropWhile isDigit)
    | r => ([], r)
  if ip = [] ∧ fp = [] then 0
  else
    match exponent r with
    | none => 0
    | some e =>
      let v : ℚ := ((digitsVal (ip ++ fp) : ℕ) : ℚ) / 10 ^ fp.length * 10 ^ e
      if neg then -v else v

/-- A tone of a scale (Tunings.h:50-62): what it was written as. -/
inductive Tone where
  | cents (c : ℚ)
  | ratio (n d : Int)
  deriving DecidableEq

/-- The text before the first slash, and the text after it if there is one. -/
def atSlash (s : Text) : Text × Option Text :=
  match s.dropWhile (· ≠ '/') with
  | [] => (s, none)
  | _ :: r => (s.takeWhile (· ≠ '/'), some r)

/-- The denominator (Tunings.cpp:45-54). -/
def denominator : Option Text → Option Int
  | none => some 1
  | some b => atoi b

/-- `toneFromString` (Tunings.cpp:33-71). -/
def toneFromString (line : Text) : Outcome Tone :=
  if '.' ∈ line then .ok (.cents (atof line))
  else
    let (a, b) := atSlash line
    match atoi a, denominator b with
    | some n, some d => if n = 0 ∨ d = 0 then .throws else .ok (.ratio n d)
    | _, _ => .undef

/-- `std::getline` until the end of the stream. -/
def splitLines : Text → List Text
  | [] => []
  | c :: s =>
    if c = '\n' then [] :: splitLines s
    else
      match splitLines s with
      | [] => [[c]]
      | l :: ls => (c :: l) :: ls

structure Scale where
  description : Text
  tones : List Tone
  deriving DecidableEq

inductive Phase where
  | header
  | count
  | note
  | trailing
  deriving DecidableEq

/-- The variables of `readSCLStream` (Tunings.cpp:75-81). -/
structure Reader where
  phase : Phase := .header
  description : Text := []
  count : Int := 0
  tones : List Tone := []

/-- `(state == read_note && line.empty()) || line[0] == '!'` (Tunings.cpp:86). -/
def skipped (r : Reader) (line : Text) : Bool := (r.phase = .note && line.isEmpty) || line.head? = some '!'

/-- One turn of the loop of `readSCLStream` (Tunings.cpp:82-111). -/
def readLine (r : Reader) (line : Text) : Outcome Reader :=
  if skipped r line then .ok r
  else
    match r.phase with
    | .header => .ok { r with description := line, phase := .count }
    | .count =>
      match atoi line with
      | none => .undef
      | some c =>
        if c < 0 ∨ c > 64 then .throws
        else .ok { r with count := c, phase := if c > 0 then .note else .trailing }
    | .note =>
      match toneFromString line with
      | .ok t =>
        let tones := r.tones ++ [t]
        .ok { r with tones := tones, phase := if (tones.length : Int) = r.count then .trailing else .note }
      | .throws => .throws
      | .undef => .undef
    | .trailing => .ok r

/-- The loop of `readSCLStream`. -/
def readLines : Reader → List Text → Outcome Reader
  | r, [] => .ok r
  | r, l :: ls =>
    match readLine r l with
    | .ok r => readLines r ls
    | .throws => .throws
    | .undef => .undef

/-- `readSCLStream` (Tunings.cpp:73-126). -/
def readSCL (text : Text) : Outcome Scale :=
  match readLines {} (splitLines text) with
  | .ok r =>
    if r.phase ≠ .note ∧ r.phase ≠ .trailing then .throws
    else if (r.tones.length : Int) ≠ r.count then .throws
    else .ok ⟨r.description, r.tones⟩
  | .throws => .throws
  | .undef => .undef

/-- `evenTemperament12NoteScale` (Tunings.cpp:149-160). -/
def evenTemperament : Scale := ⟨[], (List.range 12).map fun i : Nat => .cents (100 * ((i : ℚ) + 1))⟩

/-! ### Pitches -/

/-- A number, minus infinity or "not a number". -/
inductive Val where
  | num (x : ℝ)
  | ninf
  | nan

namespace Val

noncomputable def add : Val → Val → Val
  | num x, num y => num (x + y)
  | nan, _ => nan
  | _, nan => nan
  | _, _ => ninf

noncomputable def neg : Val → Val
  | num x => num (-x)
  | _ => nan

noncomputable def sub (a b : Val) : Val := a.add b.neg

noncomputable def mulInt (k : Int) : Val → Val
  | num x => num (k * x)
  | _ => nan

noncomputable def scale (k : ℝ) : Val → Val
  | num x => num (k * x)
  | v => v

/-- `pow(2.0, x)`. -/
noncomputable def exp2 : Val → Val
  | num x => num ((2 : ℝ) ^ x)
  | ninf => num 0
  | nan => nan

/-- `log2`. -/
noncomputable def log2 : Val → Val
  | num x => if 0 < x then num (Real.logb 2 x) else if x = 0 then ninf else nan
  | _ => nan

end Val

/-- `t.floatValue` (Tunings.cpp:67-69, 156-157): 1 plus the tone in octaves. -/
noncomputable def Tone.floatValue : Tone → Val
  | .cents c => (Val.num ((c : ℝ) / 1200)).add (.num 1)
  | .ratio n d => (Val.log2 (.num ((n : ℝ) / d))).add (.num 1)

/-- `s.tones[i].floatValue`; the tones after the last are 1/1 (Tunings.h:58-61, 81). -/
noncomputable def floatAt (s : Scale) (i : Nat) : Val := (s.tones.getD i (.ratio 1 1)).floatValue

/-- `s.tones[s.count - 1].floatValue - 1.0`. -/
noncomputable def period (s : Scale) : Val := (floatAt s (s.tones.length - 1)).sub (.num 1)

/-- Tunings.cpp:350-354. -/
noncomputable def loopUp (n : Nat) (dt : Val) (p : Int) (t : Val) : Int × Val :=
  if p < 0 ∧ 0 < n then loopUp n dt (p + n) (t.add dt) else (p, t)
termination_by (-p).toNat
decreasing_by omega

/-- Tunings.cpp:355-359. -/
noncomputable def loopDown (n : Nat) (dt : Val) (p : Int) (t : Val) : Int × Val :=
  if p > n ∧ 0 < n then loopDown n dt (p - n) (t.sub dt) else (p, t)
termination_by p.toNat
decreasing_by omega

/-- `tuningConstantNote`: always 69 (Tuning.cpp:149). -/
def tuningNote : Int := 69

/-- `MIDI_0_FREQ` (Tunings.h:40). -/
noncomputable def midi0 : ℝ := 8.17579891564371

/-- `tuningCenterPitchOffset` (Tunings.cpp:339-365), without a list of keys. -/
noncomputable def center (s : Scale) (root : Int) : Val :=
  let p := tuningNote - root
  if p = 0 then .num 0
  else
    let (p, t) := loopUp s.tones.length (period s) p (.num 0)
    let (p, t) := loopDown s.tones.length (period s) p t
    if p = 0 then t.neg
    else ((floatAt s (p - 1).toNat).sub (.num 1)).sub t

/-- `pitches[i]` (Tunings.cpp:367-405, 468-483), without a list of keys. Division and remainder round towards 0. The table of
positions in the scale is left out: the engine does not use it. -/
noncomputable def entry (s : Scale) (root : Int) (i : Nat) : Val :=
  let n : Int := s.tones.length
  if (i : Int) - (256 + tuningNote) = 0 then .num 1
  else
    let dist := (i : Int) - (256 + root)
    let rounds := (dist - 1).tdiv n
    let thisRound := (dist - 1).tmod n
    let (thisRound, rounds) := if thisRound < 0 then (thisRound + n, rounds - 1) else (thisRound, rounds)
    ((floatAt s thisRound.toNat).add ((period s).mulInt rounds)).sub (center s root)

/-- A `Tunings::Tuning` object: the scale and mapping it was made from, and its table of 512 frequencies. The table of their
logarithms is left out: the engine does not use it. -/
structure Tuned where
  scale : Scale
  root : Int
  freq : ℚ
  ptable : Fin 512 → Val

/-- `pitchMod` (Tunings.cpp:337, 548). -/
noncomputable def pitchMod (freq : ℚ) : Val := (Val.log2 (.num ((freq : ℝ) / midi0))).sub (.num 1)

/-- The tables made by the constructor of `Tunings::Tuning` (Tunings.cpp:325-326, 367-506). For the note of line 373 the power is
taken of the same sum. -/
noncomputable def tables (s : Scale) (root : Int) (freq : ℚ) : Tuned :=
  { scale := s, root := root, freq := freq, ptable := fun i => ((entry s root i).add (pitchMod freq)).exp2 }

/-- The constructor of `Tunings::Tuning` (Tunings.cpp:323-507) with the mapping of `startScaleOnAndTuneNoteTo`
(Tunings.cpp:539-551). The sum of line 335 is not defined if it does not fit an `int`. -/
noncomputable def construct (s : Scale) (root : Int) (freq : ℚ) : Outcome Tuned :=
  if s.tones.length = 0 then .throws
  else if 256 + root > 2147483647 then .undef
  else .ok (tables s root freq)

/-- `std::min(std::max(0, mn + 256), N - 1)` (Tunings.cpp:510; Tuning.cpp:73). -/
def index (key : Int) : Fin 512 := ⟨(min (max 0 (key + 256)) 511).toNat, by omega⟩

/-- `frequencyForMidiNote` (Tunings.cpp:509-512). -/
noncomputable def Tuned.frequency (t : Tuned) (key : Int) : Val := (t.ptable (index key)).scale midi0

/-! ### The object of the engine -/

/-- `Tuning::Impl` (Tuning.cpp:39-55). -/
structure State where
  rootKey : Int
  tuningFrequency : ℚ
  tuning : Tuned
  scalaFile : Bool
  modificationTime : Int
  keys : Fin 512 → Val

/-- `updateKeysFractional12TET` (Tuning.cpp:131-138). -/
noncomputable def keysOf (t : Tuned) : Fin 512 → Val := fun k =>
  (((t.frequency ((k : Int) - 256)).scale (1 / 440)).log2.scale 12).add (.num 69)

/-- `updateScale` (Tuning.cpp:76-87). -/
noncomputable def updateScale (st : State) (s : Scale) (file : Option Int) : Outcome State :=
  match construct s st.tuning.root st.tuning.freq with
  | .ok t =>
    let st := { st with tuning := t, keys := keysOf t, scalaFile := file.isSome }
    .ok (match file with
      | some m => { st with modificationTime := m }
      | none => st)
  | .throws => .throws
  | .undef => .undef

/-- `updateRootKey` (Tuning.cpp:105-116). -/
noncomputable def updateRootKey (st : State) (root : Int) : Outcome State :=
  let root := max 0 root
  if st.rootKey = root then .ok st
  else
    match construct st.tuning.scale root st.tuningFrequency with
    | .ok t => .ok { st with tuning := t, rootKey := root, keys := keysOf t }
    | .throws => .throws
    | .undef => .undef

/-- `updateTuningFrequency` (Tuning.cpp:118-129). -/
noncomputable def updateTuningFrequency (st : State) (freq : ℚ) : Outcome State :=
  let freq := max 0 freq
  if st.tuningFrequency = freq then .ok st
  else
    match construct st.tuning.scale st.rootKey freq with
    | .ok t => .ok { st with tuning := t, tuningFrequency := freq, keys := keysOf t }
    | .throws => .throws
    | .undef => .undef

/-- `loadScalaFile` and `loadScalaString` (Tuning.cpp:162-217) after the text is read: the result and the new state. A file
that cannot be opened reads as an empty text. -/
noncomputable def load (st : State) (text : Text) (file : Option Int) : Outcome (State × Bool) :=
  let failure : Outcome (State × Bool) :=
    match updateScale st evenTemperament none with
    | .ok st => .ok (st, false)
    | .throws => .throws
    | .undef => .undef
  match readSCL text with
  | .undef => .undef
  | .throws => failure
  | .ok s =>
    if s.tones.length = 0 then failure
    else
      match updateScale st s file with
      | .ok st => .ok (st, true)
      | .throws => .throws
      | .undef => .undef

/-- `shouldReloadScala` (Tuning.cpp:89-103); the time of the file now is given. -/
def shouldReload (st : State) (now : Int) : State × Bool :=
  if !st.scalaFile then (st, false)
  else if now > st.modificationTime then ({ st with modificationTime := now }, true)
  else (st, false)

/-- The calls of the engine. -/
inductive Call where
  /-- A file with this text and time of modification. -/
  | loadFile (text : Text) (time : Int)
  | loadString (text : Text)
  | setRootKey (key : Int)
  | setFrequency (freq : ℚ)
  /-- The file that was loaded has this time of modification now. -/
  | shouldReload (now : Int)

/-- One call and its result (`false` for calls without a result). -/
noncomputable def call (st : State) : Call → Outcome (State × Bool)
  | .loadFile text time => load st text (some time)
  | .loadString text => load st text none
  | .setRootKey k =>
    match updateRootKey st k with
    | .ok st => .ok (st, false)
    | .throws => .throws
    | .undef => .undef
  | .setFrequency f =>
    match updateTuningFrequency st f with
    | .ok st => .ok (st, false)
    | .throws => .throws
    | .undef => .undef
  | .shouldReload now => .ok (shouldReload st now)

/-- Several calls in order: the state and the results. -/
noncomputable def run : State → List Call → Outcome (State × List Bool)
  | st, [] => .ok (st, [])
  | st, c :: cs =>
    match call st c with
    | .ok (st, b) =>
      match run st cs with
      | .ok (st, bs) => .ok (st, b :: bs)
      | .throws => .throws
      | .undef => .undef
    | .throws => .throws
    | .undef => .undef

/-- A new object (Tuning.cpp:21, 42-55). -/
noncomputable def initial : State :=
  { rootKey := 60
    tuningFrequency := 440
    tuning := tables evenTemperament 60 440
    scalaFile := false
    modificationTime := 0
    keys := keysOf (tables evenTemperament 60 440) }

/-- `getFrequencyOfKey` (Tuning.cpp:244-247). -/
noncomputable def State.frequencyOfKey (st : State) (key : Int) : Val := st.tuning.frequency key

/-- `getKeyFractional12TET` (Tuning.cpp:71-74). -/
noncomputable def State.keyFractional (st : State) (key : Int) : Val := st.keys (index key)

end Verif.Tuning
