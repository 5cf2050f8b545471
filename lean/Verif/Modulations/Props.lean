import Verif.Modulations.Names
import Verif.Connections.Props
import Mathlib.Tactic.Linarith

/-!
C145: the names of modulation opcodes. Each opcode of the format which modulates something acts on the modulation that its name
tells - the modulator, the parameter, the number of the filter or equalizer, the controller - with the value given.
-/
namespace Verif.Modulations
open Verif.Opcode
open Verif.ModMatrix (ModKey ModId)
open Verif.Connections (Op Param)

/-! ### Specification -/

/-- The parameters of a region which are modulated; filters and equalizers are counted from 1. -/
inductive Parameter where
  | volume | amplitude | pan | position | width | pitch | detune | modDepth
  | cutoff (n : Nat) | resonance (n : Nat) | filterGain (n : Nat)
  | eqGain (n : Nat) | eqFreq (n : Nat) | eqBandwidth (n : Nat)
deriving DecidableEq, Repr

/-- The number of its filter or equalizer. -/
def Parameter.number : Parameter → Option Nat
  | .cutoff n | .resonance n | .filterGain n | .eqGain n | .eqFreq n | .eqBandwidth n => some n
  | _ => none

/-- The number is from 1 to 256. -/
def Parameter.Ok (p : Parameter) : Prop := ∀ n, p.number = some n → 1 ≤ n ∧ n ≤ 256

/-- Its values are written as percents. -/
def Parameter.percent : Parameter → Bool
  | .amplitude | .pan | .position | .width | .modDepth => true
  | _ => false

/-- LFOs and envelopes modulate all but the two parameters of oscillators. -/
def Parameter.modulable : Parameter → Bool
  | .detune | .modDepth => false
  | _ => true

/-- The parameter in the modulation matrix; filters and equalizers are counted from 0 there. -/
def Parameter.key (region : Nat) : Parameter → ModKey
  | .volume => ⟨.Volume, some region, 0, 0⟩
  | .amplitude => ⟨.Amplitude, some region, 0, 0⟩
  | .pan => ⟨.Pan, some region, 0, 0⟩
  | .position => ⟨.Position, some region, 0, 0⟩
  | .width => ⟨.Width, some region, 0, 0⟩
  | .pitch => ⟨.Pitch, some region, 0, 0⟩
  | .detune => ⟨.OscillatorDetune, some region, 0, 0⟩
  | .modDepth => ⟨.OscillatorModDepth, some region, 0, 0⟩
  | .cutoff n => ⟨.FilCutoff, some region, n - 1, 0⟩
  | .resonance n => ⟨.FilResonance, some region, n - 1, 0⟩
  | .filterGain n => ⟨.FilGain, some region, n - 1, 0⟩
  | .eqGain n => ⟨.EqGain, some region, n - 1, 0⟩
  | .eqFreq n => ⟨.EqFrequency, some region, n - 1, 0⟩
  | .eqBandwidth n => ⟨.EqBandwidth, some region, n - 1, 0⟩

/-- Its name as an opcode. -/
def Parameter.text : Parameter → Text
  | .volume => "volume".toList
  | .amplitude => "amplitude".toList
  | .pan => "pan".toList
  | .position => "position".toList
  | .width => "width".toList
  | .pitch => "pitch".toList
  | .detune => "oscillator_detune".toList
  | .modDepth => "oscillator_mod_depth".toList
  | .cutoff n => "cutoff".toList ++ decimal n
  | .resonance n => "resonance".toList ++ decimal n
  | .filterGain n => "fil".toList ++ decimal n ++ "_gain".toList
  | .eqGain n => "eq".toList ++ decimal n ++ "_gain".toList
  | .eqFreq n => "eq".toList ++ decimal n ++ "_freq".toList
  | .eqBandwidth n => "eq".toList ++ decimal n ++ "_bw".toList

/-- Its name after that of a modulator: without underscore. -/
def Parameter.short : Parameter → Text
  | .filterGain n => "fil".toList ++ decimal n ++ "gain".toList
  | .eqGain n => "eq".toList ++ decimal n ++ "gain".toList
  | .eqFreq n => "eq".toList ++ decimal n ++ "freq".toList
  | .eqBandwidth n => "eq".toList ++ decimal n ++ "bw".toList
  | p => p.text

/-- The LFOs and envelopes with a number, counted from 1. -/
inductive Modulator where
  | lfo (k : Nat)
  | eg (k : Nat)

/-- Its name. -/
def Modulator.text : Modulator → Text
  | .lfo k => "lfo".toList ++ decimal k
  | .eg k => "eg".toList ++ decimal k

/-- Its number. -/
def Modulator.number : Modulator → Nat
  | .lfo k | .eg k => k

/-- The modulator in the modulation matrix. -/
def Modulator.key (region : Nat) : Modulator → ModKey
  | .lfo k => ⟨.LFO, some region, k - 1, 0⟩
  | .eg k => ⟨.Envelope, some region, k - 1, 0⟩

/-- The amount which a value stands for: the number it begins with, 0 if none. -/
def amount (percent : Bool) (value : Text) : ℚ :=
  match Numbers.readLeadingFloat value with
  | none => 0
  | some v => if percent then v / 100 else v

/-- The number of a curve: 0 to 255, otherwise 0. -/
def curveNumber (value : Text) : Nat :=
  match readLeadingInt value with
  | none => 0
  | some v => if 0 ≤ v ∧ v ≤ 255 then v.toNat else 0

/-- A smoothing time: 0 if negative, at most 65535. -/
def smoothTime (value : Text) : Nat :=
  match readLeadingInt value with
  | none => 0
  | some v => if v < 0 then 0 else min v.toNat 65535

/-- A step: 0 if negative. -/
def stepSize (percent : Bool) (value : Text) : ℚ :=
  match Numbers.readLeadingFloat value with
  | none => 0
  | some v => if v < 0 then 0 else if percent then v / 100 else v

/-- What a controller opcode says, by its last word. -/
def said (percent : Bool) (w : Category) (value : Text) : Param :=
  match w with
  | .curveCc => .curve (curveNumber value)
  | .stepCc => .step (stepSize percent value)
  | .smoothCc => .smooth (smoothTime value)
  | _ => .on (amount percent value)

/-! ### Values -/

theorem readMod_amount (percent : Bool) (value : Text) : readMod percent value = amount percent value := by
  unfold readMod amount
  cases h : Numbers.readLeadingFloat value with
  | none => simp [normalize]
  | some v =>
    have : transformFloat modSpec false (normalize percent) v = some (normalize percent v) := by
      unfold transformFloat checkBounds modSpec
      simp only [Bool.false_eq_true, if_false, Bool.not_true]
      split
      · next heq => split at heq <;> [cases heq; (split at heq <;> cases heq)]
      · rfl
    simp [this, normalize]

theorem readStep_stepSize (percent : Bool) (value : Text) : normalize percent (readStep value) = stepSize percent value := by
  unfold readStep stepSize
  cases h : Numbers.readLeadingFloat value with
  | none => simp [normalize]
  | some v =>
    have : transformFloat stepSpec false id v = if v < 0 then none else some v := by
      unfold transformFloat checkBounds stepSpec
      simp only [Bool.false_eq_true, if_false, Bool.not_true, Bool.not_false, if_true]
      by_cases h1 : (127 : ℚ) < v
      · simp [h1, show ¬ v < 0 from by intro h0; linarith]
      · by_cases h2 : v < 0 <;> simp [h1, h2]
    simp only [Option.bind_some, this]
    by_cases h2 : v < 0 <;> simp [h2, normalize]

theorem readNat_curve (value : Text) : readNat 255 curveSpec value = curveNumber value := by
  unfold readNat curveNumber readIntOr readInt
  cases h : readLeadingInt value with
  | none => simp [curveSpec]
  | some v =>
    simp only [transformInt, checkBounds, curveSpec]
    by_cases h1 : v > 255
    · simp [h1, show ¬ v ≤ 255 by omega]
    · by_cases h2 : v < 0
      · simp [h1, h2, show ¬ 0 ≤ v by omega]
      · simp [h1, h2, show 0 ≤ v by omega, show v ≤ 255 by omega, max_eq_left (show 0 ≤ v by omega)]

theorem readNat_smooth (value : Text) : readNat 65535 smoothSpec value = smoothTime value := by
  unfold readNat smoothTime readIntOr readInt
  cases h : readLeadingInt value with
  | none => simp [smoothSpec]
  | some v =>
    simp only [transformInt, checkBounds, smoothSpec]
    by_cases h2 : v < 0
    · simp [h2, show ¬ v > 100 by omega]
    · by_cases h1 : v > 100
      · simp [h1, h2, max_eq_left (show 0 ≤ v by omega)]
        omega
      · simp [h1, h2, max_eq_left (show 0 ≤ v by omega)]
        omega

theorem ccParam_said (percent : Bool) (name value : Text) (w : Category × Text) (hw : w ∈ words)
    (h : identifyCategory (trim name) = w.1) : ccParam percent name value = some (said percent w.1 value) := by
  unfold ccParam
  rw [h]
  simp only [words, List.mem_cons, List.not_mem_nil, or_false] at hw
  rcases hw with rfl | rfl | rfl | rfl
  · simp only [said, readMod_amount]
  · simp only [said, readNat_curve]
  · simp only [said, readStep_stepSize]
  · simp only [said, readNat_smooth]

/-! ### Names -/

/-- A controller opcode: the name of what is modulated, the word, and the number of the controller. -/
def ccName (base : Text) (w : Category × Text) (n : Nat) : Text := base ++ w.2 ++ decimal n

/-- The pieces of a name with a controller after it. -/
def withCc (ps : List (Text × Nat)) (tail : Text) (w : Category × Text) (n : Nat) : List (Text × Nat) := ps ++ [(tail ++ w.2, n)]

theorem write_snoc : ∀ (ps : List (Text × Nat)) (tail t : Text) (n : Nat), write (ps ++ [(tail ++ t, n)]) [] = write ps tail ++ t ++ decimal n
  | [], tail, t, n => by simp [write]
  | (l, k) :: ps, tail, t, n => by
    rw [List.cons_append, write, write_snoc ps tail t n, write]
    simp [List.append_assoc]

theorem marked_snoc : ∀ (ps : List (Text × Nat)) (tail t : Text) (n : Nat), marked (ps ++ [(tail ++ t, n)]) [] = marked ps tail ++ (t ++ ['&'])
  | [], tail, t, n => by simp [marked]
  | (l, k) :: ps, tail, t, n => by
    rw [List.cons_append, marked, marked_snoc ps tail t n, marked]
    simp [List.append_assoc]

theorem word_of (w : Category × Text) (hw : w ∈ words) : Word w.2 ∧ w.2 ≠ [] := by
  revert w
  decide

theorem plain_withCc {ps : List (Text × Nat)} {tail : Text} (h : Plain ps tail) (w : Category × Text) (hw : w ∈ words) (n : Nat) (hn : n < 65536) :
    Plain (withCc ps tail w n) [] := by
  constructor
  · intro q hq
    rcases List.mem_append.mp hq with hq | hq
    · exact h.1 q hq
    · rw [List.mem_singleton] at hq
      subst hq
      obtain ⟨h1, h2⟩ := word_of w hw
      refine ⟨by simp [h2], ?_, hn⟩
      intro c hc
      rcases List.mem_append.mp hc with hc | hc
      · exact h.2 c hc
      · exact h1 c hc
  · intro c hc; cases hc

/-- What is known of the name of a controller opcode. -/
theorem ccName_facts (ps : List (Text × Nat)) (tail : Text) (h : Plain ps tail) (w : Category × Text) (hw : w ∈ words) (n : Nat) (hn : n < 65536) :
    Loader.seen (ccName (write ps tail) w n) = (marked ps tail ++ (w.2 ++ ['&']), ps.map (·.2) ++ [n]) ∧
    identifyCategory (trim (ccName (write ps tail) w n)) = w.1 ∧
    trim (ccName (write ps tail) w n) = ccName (write ps tail) w n ∧
    letterOnlyName (trim (ccName (write ps tail) w n)) = marked ps tail ++ (w.2 ++ ['&']) := by
  have hp := plain_withCc h w hw n hn
  have e : ccName (write ps tail) w n = write (withCc ps tail w n) [] := (write_snoc ps tail w.2 n).symm
  have ht : trim (ccName (write ps tail) w n) = ccName (write ps tail) w n := by rw [e, trim_write _ _ hp]
  refine ⟨?_, ?_, ht, ?_⟩
  · rw [e, seen_write _ _ hp]
    unfold withCc
    rw [marked_snoc]
    simp
  · rw [ht]
    exact category_of _ _ w hw (decimal_spec n).2.2 (decimal_spec n).2.1
  · rw [e, letterOnly_write _ _ hp]
    exact marked_snoc ps tail w.2 n

theorem genericCc_said (ps : List (Text × Nat)) (tail : Text) (h : Plain ps tail) (w : Category × Text) (hw : w ∈ words) (n : Nat) (hn : n < 65536)
    (percent : Bool) (value : Text) (t : ModKey) :
    genericCc percent (ccName (write ps tail) w n) value t = [.cc n t (said percent w.1 value)] := by
  obtain ⟨h1, h2, _, _⟩ := ccName_facts ps tail h w hw n hn
  unfold genericCc
  rw [ccParam_said percent _ value w hw h2, h1]
  simp

theorem anyCc_word (w : Category × Text) (hw : w ∈ words) (x : Text) : anyCc x (x ++ (w.2 ++ ['&'])) = true := by
  unfold anyCc
  simp only [words, List.mem_cons, List.not_mem_nil, or_false] at hw
  rcases hw with rfl | rfl | rfl | rfl <;> simp

/-! ### Parameters by their pieces -/

/-- The pieces of the name of a parameter. -/
def Parameter.pieces : Parameter → List (Text × Nat) × Text
  | .volume => ([], "volume".toList)
  | .amplitude => ([], "amplitude".toList)
  | .pan => ([], "pan".toList)
  | .position => ([], "position".toList)
  | .width => ([], "width".toList)
  | .pitch => ([], "pitch".toList)
  | .detune => ([], "oscillator_detune".toList)
  | .modDepth => ([], "oscillator_mod_depth".toList)
  | .cutoff n => ([("cutoff".toList, n)], [])
  | .resonance n => ([("resonance".toList, n)], [])
  | .filterGain n => ([("fil".toList, n)], "_gain".toList)
  | .eqGain n => ([("eq".toList, n)], "_gain".toList)
  | .eqFreq n => ([("eq".toList, n)], "_freq".toList)
  | .eqBandwidth n => ([("eq".toList, n)], "_bw".toList)

theorem Parameter.text_write : ∀ p : Parameter, p.text = write p.pieces.1 p.pieces.2
  | .volume | .amplitude | .pan | .position | .width | .pitch | .detune | .modDepth => rfl
  | .cutoff n => congrArg ("cutoff".toList ++ ·) (List.append_nil (decimal n)).symm
  | .resonance n => congrArg ("resonance".toList ++ ·) (List.append_nil (decimal n)).symm
  | .filterGain n => List.append_assoc "fil".toList (decimal n) "_gain".toList
  | .eqGain n => List.append_assoc "eq".toList (decimal n) "_gain".toList
  | .eqFreq n => List.append_assoc "eq".toList (decimal n) "_freq".toList
  | .eqBandwidth n => List.append_assoc "eq".toList (decimal n) "_bw".toList

theorem plain_none {t : Text} (h : Word t) : Plain [] t := ⟨fun q hq => (List.not_mem_nil hq).elim, h⟩

theorem plain_one {a t : Text} {n : Nat} (h1 : a ≠ []) (h2 : Word a) (h3 : n < 65536) (h4 : Word t) : Plain [(a, n)] t := by
  refine ⟨fun q hq => ?_, h4⟩
  rw [List.mem_singleton] at hq
  subst hq
  exact ⟨h1, h2, h3⟩

theorem Parameter.plain (p : Parameter) (hp : p.Ok) : Plain p.pieces.1 p.pieces.2 := by
  have hb : ∀ n, p.number = some n → n < 65536 := fun n h => by have := hp n h; omega
  cases p with
  | volume | amplitude | pan | position | width | pitch | detune | modDepth => exact plain_none (by decide)
  | cutoff n | resonance n | filterGain n | eqGain n | eqFreq n | eqBandwidth n =>
    exact plain_one (by simp) (by decide) (hb n rfl) (by simp only [Parameter.pieces]; decide)

/-- The entry of a parameter in the switch. -/
def Parameter.entry (p : Parameter) : Entry := ⟨marked p.pieces.1 p.pieces.2, (p.key 0).id, p.number.isSome, p.percent⟩

theorem direct_find (p : Parameter) (w : Category × Text) (hw : w ∈ words) :
    direct.find? (fun e => anyCc e.letters (marked p.pieces.1 p.pieces.2 ++ (w.2 ++ ['&']))) = some p.entry := by
  simp only [words, List.mem_cons, List.not_mem_nil, or_false] at hw
  rcases hw with rfl | rfl | rfl | rfl <;> cases p <;>
    simp only [Parameter.pieces, Parameter.entry, marked, Parameter.number, Parameter.percent, Parameter.key, Option.isSome] <;>
    decide +kernel

theorem targetKey_eq (region : Nat) (p : Parameter) (hp : p.Ok) :
    targetKey region (p.key 0).id p.number.isSome p.number = some (p.key region) := by
  cases p <;> simp only [targetKey, Parameter.number, Parameter.key, Option.isSome] <;>
    first
      | rfl
      | (have := hp _ rfl
         rename_i n
         cases n with
         | zero => omega
         | succ k =>
           simp only [if_true, Connections.numbered]
           rw [Nat.mod_eq_of_lt (by omega)])

/-! ### Theorems -/

/-- **Controllers**: `<parameter>_onccN`, `_curveccN`, `_stepccN` and `_smoothccN` say the depth, curve, step and smoothing of the
modulation of that parameter by the controller N, and nothing else. -/
theorem controller_opcode (region lfos : Nat) (p : Parameter) (hp : p.Ok) (w : Category × Text) (hw : w ∈ words) (n : Nat) (hn : n < 65536)
    (value : Text) : effects region lfos (ccName p.text w n) value = [.cc n (p.key region) (said p.percent w.1 value)] := by
  have hpl := p.plain hp
  rw [p.text_write]
  obtain ⟨h1, _, _, _⟩ := ccName_facts _ _ hpl w hw n hn
  unfold effects
  simp only [h1, direct_find p w hw]
  have hh : (List.map (·.2) p.pieces.1 ++ [n]).head? = some ((p.number).getD n) := by
    cases p <;> rfl
  have ht : targetKey region p.entry.id p.entry.numbered (List.map (·.2) p.pieces.1 ++ [n]).head? = some (p.key region) := by
    rw [hh]
    have := targetKey_eq region p hp
    cases hnum : p.number with
    | none =>
      rw [hnum] at this
      simpa [Parameter.entry, hnum, targetKey] using this
    | some k =>
      rw [hnum] at this
      simpa [Parameter.entry, hnum] using this
  simp only [ht]
  exact genericCc_said _ _ hpl w hw n hn p.entry.percent value _

/-! Modulators with a number. -/

/-- The pieces of the name of a parameter after that of a modulator. -/
def Parameter.shortPieces : Parameter → List (Text × Nat) × Text
  | .filterGain n => ([("_fil".toList, n)], "gain".toList)
  | .eqGain n => ([("_eq".toList, n)], "gain".toList)
  | .eqFreq n => ([("_eq".toList, n)], "freq".toList)
  | .eqBandwidth n => ([("_eq".toList, n)], "bw".toList)
  | .cutoff n => ([("_cutoff".toList, n)], [])
  | .resonance n => ([("_resonance".toList, n)], [])
  | p => ([], '_' :: p.pieces.2)

/-- The word of a modulator. -/
def Modulator.word : Modulator → Text
  | .lfo _ => "lfo".toList
  | .eg _ => "eg".toList

/-- The pieces of a name with a modulator and a parameter. -/
def modPieces (s : Modulator) (p : Parameter) : List (Text × Nat) × Text := ((s.word, s.number) :: p.shortPieces.1, p.shortPieces.2)

/-- The opcode `<modulator>_<parameter>`. -/
def modName (s : Modulator) (p : Parameter) : Text := s.text ++ ('_' :: p.short)

theorem modName_write (s : Modulator) (p : Parameter) : modName s p = write (modPieces s p).1 (modPieces s p).2 := by
  have hs : s.text = s.word ++ decimal s.number := by cases s <;> rfl
  have hp : '_' :: p.short = write p.shortPieces.1 p.shortPieces.2 := by
    cases p with
    | volume | amplitude | pan | position | width | pitch | detune | modDepth => rfl
    | cutoff n => exact congrArg ("_cutoff".toList ++ ·) (List.append_nil (decimal n)).symm
    | resonance n => exact congrArg ("_resonance".toList ++ ·) (List.append_nil (decimal n)).symm
    | filterGain n => exact List.append_assoc "_fil".toList (decimal n) "gain".toList
    | eqGain n => exact List.append_assoc "_eq".toList (decimal n) "gain".toList
    | eqFreq n => exact List.append_assoc "_eq".toList (decimal n) "freq".toList
    | eqBandwidth n => exact List.append_assoc "_eq".toList (decimal n) "bw".toList
  unfold modName modPieces
  rw [hs, hp, write, List.append_assoc]

theorem plain_cons {a : Text} {n : Nat} {ps : List (Text × Nat)} {t : Text} (h1 : a ≠ []) (h2 : Word a) (h3 : n < 65536) (h : Plain ps t) :
    Plain ((a, n) :: ps) t := by
  refine ⟨fun q hq => ?_, h.2⟩
  rcases List.mem_cons.mp hq with rfl | hq
  · exact ⟨h1, h2, h3⟩
  · exact h.1 q hq

theorem modPlain (s : Modulator) (p : Parameter) (hp : p.Ok) (hs : s.number < 65536) : Plain (modPieces s p).1 (modPieces s p).2 := by
  have hb : ∀ n, p.number = some n → n < 65536 := fun n h => by have := hp n h; omega
  unfold modPieces
  refine plain_cons (by cases s <;> simp [Modulator.word]) (by cases s <;> (simp only [Modulator.word]; decide)) hs ?_
  cases p with
  | volume | amplitude | pan | position | width | pitch | detune | modDepth =>
    exact plain_none (by simp only [Parameter.shortPieces, Parameter.pieces]; decide)
  | cutoff n | resonance n | filterGain n | eqGain n | eqFreq n | eqBandwidth n =>
    exact plain_one (by simp) (by decide) (hb n rfl) (by simp only [Parameter.shortPieces]; decide)

/-- The letters of such a name. -/
def modLetters (s : Modulator) (p : Parameter) : Text := marked (modPieces s p).1 (modPieces s p).2

/-- The table of a modulator. -/
def Modulator.table : Modulator → List Entry
  | .lfo _ => lfoTargets
  | .eg _ => egTargets

/-- The entry of a parameter. -/
def modEntry (s : Modulator) (p : Parameter) : Entry := ⟨modLetters s p, (p.key 0).id, p.number.isSome, p.percent⟩

theorem mod_find (s : Modulator) (p : Parameter) (hm : p.modulable = true) :
    s.table.find? (fun e => decide (modLetters s p = e.letters)) = some (modEntry s p) ∧
    direct.find? (fun e => anyCc e.letters (modLetters s p)) = none ∧
    lfoOwn.find? (fun e => anyCc e.1 (modLetters s p)) = none ∧
    anyCc "eg&_freq_lfo&".toList (modLetters s p) = false ∧
    modLetters s p ≠ "eg&_freq_lfo&".toList ∧ modLetters s p ≠ "cutoff&_chanaft".toList ∧
    modLetters s p ≠ "cutoff&_polyaft".toList := by
  cases s <;> cases p <;> first
    | exact absurd hm (by decide)
    | (simp only [modEntry, modLetters, modPieces, Parameter.shortPieces, Parameter.pieces, marked, Modulator.word, Modulator.table,
        Parameter.number, Parameter.percent, Parameter.key, Option.isSome]; decide +kernel)

theorem mod_find_cc (s : Modulator) (p : Parameter) (hm : p.modulable = true) (w : Category × Text) (hw : w ∈ words) :
    s.table.find? (fun e => decide (modLetters s p ++ (w.2 ++ ['&']) = e.letters)) = none ∧
    s.table.find? (fun e => anyCc e.letters (modLetters s p ++ (w.2 ++ ['&']))) = some (modEntry s p) ∧
    direct.find? (fun e => anyCc e.letters (modLetters s p ++ (w.2 ++ ['&']))) = none ∧
    lfoOwn.find? (fun e => anyCc e.1 (modLetters s p ++ (w.2 ++ ['&']))) = none ∧
    anyCc "eg&_freq_lfo&".toList (modLetters s p ++ (w.2 ++ ['&'])) = false ∧
    modLetters s p ++ (w.2 ++ ['&']) ≠ "eg&_freq_lfo&".toList ∧
    modLetters s p ++ (w.2 ++ ['&']) ≠ "cutoff&_chanaft".toList ∧
    modLetters s p ++ (w.2 ++ ['&']) ≠ "cutoff&_polyaft".toList := by
  revert w
  cases s <;> cases p <;> first
    | exact absurd hm (by decide)
    | (simp only [modEntry, modLetters, modPieces, Parameter.shortPieces, Parameter.pieces, marked, Modulator.word, Modulator.table,
        Parameter.number, Parameter.percent, Parameter.key, Option.isSome]; decide +kernel)

theorem classics_none (s : Modulator) (rest : Text) : classics.find? (fun m => m.name.isPrefixOf (s.word ++ rest)) = none := by
  cases s <;> rfl

theorem prefix_lfo (s : Modulator) (rest : Text) :
    "lfo&_".toList.isPrefixOf (s.word ++ '&' :: '_' :: rest) = (match s with | .lfo _ => true | .eg _ => false) ∧
    "eg&_".toList.isPrefixOf (s.word ++ '&' :: '_' :: rest) = (match s with | .lfo _ => false | .eg _ => true) := by
  cases s <;> exact ⟨rfl, rfl⟩

theorem modLetters_form (s : Modulator) (p : Parameter) : ∃ rest, modLetters s p = s.word ++ '&' :: '_' :: rest := by
  cases p <;> exact ⟨_, rfl⟩

/-- The key of a modulator with number from 1 to 256. -/
theorem modulator_key (region : Nat) (s : Modulator) (h1 : 1 ≤ s.number) (h2 : s.number ≤ 256) :
    s.key region = (match s with | .lfo k => ⟨.LFO, some region, (k - 1) % 256, 0⟩ | .eg k => ⟨.Envelope, some region, (k - 1) % 256, 0⟩) := by
  cases s <;> simp only [Modulator.number] at h1 h2 <;> simp only [Modulator.key] <;> rw [Nat.mod_eq_of_lt (by omega)]

/-- The opcodes with a modulator go to the table of the modulator. -/
theorem effects_modulator (region lfos : Nat) (s : Modulator) (h1 : 1 ≤ s.number) (h2 : s.number ≤ 256) (name value L rest : Text) (ns : List Nat)
    (hname : trim name = s.word ++ rest) (hseen : Loader.seen name = (L, s.number :: ns)) (hlet : letterOnlyName (trim name) = L)
    (hL : ∃ r, L = s.word ++ '&' :: '_' :: r) (hd : direct.find? (fun e => anyCc e.letters L) = none)
    (hl : lfoOwn.find? (fun e => anyCc e.1 L) = none) (hf : anyCc "eg&_freq_lfo&".toList L = false)
    (hf' : L ≠ "eg&_freq_lfo&".toList) (ha : L ≠ "cutoff&_chanaft".toList) (hp : L ≠ "cutoff&_polyaft".toList) :
    effects region lfos name value = withNumber s.table region (s.key region) name value := by
  obtain ⟨r, hr⟩ := hL
  have hc := classics_none s rest
  rw [← hname] at hc
  obtain ⟨p1, p2⟩ := prefix_lfo s r
  rw [← hr] at p1 p2
  unfold effects
  simp only [hseen, hd, if_neg ha, if_neg hp, hc, hlet, p1, p2]
  cases s with
  | lfo k =>
    simp only [if_true]
    unfold lfoV2
    rw [hseen]
    simp only [Modulator.number] at h1 h2
    obtain ⟨j, rfl⟩ : ∃ j, k = j + 1 := ⟨k - 1, by omega⟩
    simp only [List.head?_cons, Modulator.number, hl]
    rw [modulator_key region (.lfo (j + 1)) h1 h2]
    rfl
  | eg k =>
    simp only [if_true, Bool.false_eq_true, if_false]
    unfold egV2
    rw [hseen]
    simp only [Modulator.number] at h1 h2
    obtain ⟨j, rfl⟩ : ∃ j, k = j + 1 := ⟨k - 1, by omega⟩
    simp only [List.head?_cons, Modulator.number, hf, if_neg hf', Bool.false_eq_true, if_false]
    rw [modulator_key region (.eg (j + 1)) h1 h2]
    rfl

theorem second_number (s : Modulator) (p : Parameter) (extra : List Nat) (region : Nat) (hp : p.Ok) :
    targetKey region (modEntry s p).id (modEntry s p).numbered ((modPieces s p).1.map (·.2) ++ extra)[1]? = some (p.key region) := by
  have := targetKey_eq region p hp
  cases p with
  | volume | amplitude | pan | position | width | pitch | detune | modDepth => exact this
  | cutoff n | resonance n | filterGain n | eqGain n | eqFreq n | eqBandwidth n => exact this

/-- **LFOs and envelopes**: `lfoK_<parameter>` and `egK_<parameter>` say the depth of the modulation of that parameter by that LFO or
envelope, and nothing else. -/
theorem modulator_opcode (region lfos : Nat) (s : Modulator) (h1 : 1 ≤ s.number) (h2 : s.number ≤ 256) (p : Parameter) (hp : p.Ok)
    (hm : p.modulable = true) (value : Text) :
    effects region lfos (modName s p) value = [.depth (s.key region) (p.key region) (amount p.percent value)] := by
  have hpl := modPlain s p hp (by omega)
  have hn := modName_write s p
  have hs : Loader.seen (modName s p) = (modLetters s p, s.number :: p.shortPieces.1.map (·.2)) := by rw [hn, seen_write _ _ hpl]; rfl
  obtain ⟨f1, f2, f3, f4, f5, f6, f7⟩ := mod_find s p hm
  rw [effects_modulator region lfos s h1 h2 (modName s p) value (modLetters s p) (decimal s.number ++ write p.shortPieces.1 p.shortPieces.2)
    (p.shortPieces.1.map (·.2)) (by rw [hn, trim_write _ _ hpl]; rfl) hs (by rw [hn, letterOnly_write _ _ hpl]; rfl) (modLetters_form s p)
    f2 f3 f4 f5 f6 f7]
  unfold withNumber
  have ht := second_number s p [] region hp
  rw [List.append_nil] at ht
  simp only [hs, f1]
  have ht' : targetKey region (modEntry s p).id (modEntry s p).numbered (s.number :: p.shortPieces.1.map (·.2))[1]? = some (p.key region) := ht
  simp only [ht', readMod_amount]
  rfl

/-- **The depth of LFOs and envelopes**: `lfoK_<parameter>_onccN` and its companions make the depth of that modulation depend on the
controller N: the depth is connected to its own parameter of the matrix, and that parameter to the controller. -/
theorem modulator_cc_opcode (region lfos : Nat) (s : Modulator) (h1 : 1 ≤ s.number) (h2 : s.number ≤ 256) (p : Parameter) (hp : p.Ok)
    (hm : p.modulable = true) (w : Category × Text) (hw : w ∈ words) (n : Nat) (hn : n < 65536) (value : Text) :
    ∃ d, ModMatrix.getSourceDepthKey (s.key region) (p.key region) = some d ∧
      effects region lfos (ccName (modName s p) w n) value =
        [.depthMod (s.key region) (p.key region) d, .cc n d (said p.percent w.1 value)] := by
  have hpl := modPlain s p hp (by omega)
  have hnm := modName_write s p
  obtain ⟨g1, g2, g3, g4⟩ := ccName_facts _ _ hpl w hw n hn
  rw [← hnm] at g1 g2 g3 g4
  have hs : Loader.seen (ccName (modName s p) w n) =
      (modLetters s p ++ (w.2 ++ ['&']), s.number :: (p.shortPieces.1.map (·.2) ++ [n])) := by rw [g1]; rfl
  obtain ⟨f0, f1, f2, f3, f4, f5, f6, f7⟩ := mod_find_cc s p hm w hw
  obtain ⟨r, hr⟩ := modLetters_form s p
  have hd : ∃ d, ModMatrix.getSourceDepthKey (s.key region) (p.key region) = some d := by
    cases s <;> cases p <;> first
      | exact absurd hm (by decide)
      | exact ⟨_, rfl⟩
  obtain ⟨d, hd⟩ := hd
  refine ⟨d, hd, ?_⟩
  rw [effects_modulator region lfos s h1 h2 (ccName (modName s p) w n) value (modLetters s p ++ (w.2 ++ ['&']))
    (decimal s.number ++ write p.shortPieces.1 p.shortPieces.2 ++ w.2 ++ decimal n)
    (p.shortPieces.1.map (·.2) ++ [n])
    (by rw [g3, hnm]; unfold ccName modPieces; simp only [write, List.append_assoc]) hs (by rw [g4]; rfl)
    ⟨r ++ (w.2 ++ ['&']), by rw [hr]; simp⟩ f2 f3 f4 f5 f6 f7]
  unfold withNumber
  have ht := second_number s p [n] region hp
  have ht' : targetKey region (modEntry s p).id (modEntry s p).numbered (s.number :: (p.shortPieces.1.map (·.2) ++ [n]))[1]? = some (p.key region) := ht
  simp only [hs, f0, f1, ht', targetCc, hd]
  have := genericCc_said _ _ hpl w hw n hn (modEntry s p).percent value d
  rw [← hnm] at this
  rw [this]
  rfl

end Verif.Modulations
