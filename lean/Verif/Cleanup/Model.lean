import Mathlib.Data.List.Basic

/-!
Model of the renaming of opcodes to their current names: `cleanUpOpcodeName` (/repo/src/sfizz/OpcodeCleanup.re, from which
OpcodeCleanup.cpp is generated; the lines cited are those of the .re file).

A rule of the scanner is a function giving the new name if the rule matches. All rules match the name up to its end or its first
null character, so that the first rule that matches is the one that counts, and the sub-patterns are such that greedy matching
finds the only match. The name is a list of characters.
-/
namespace Verif.Cleanup

abbrev Name := List Char

/-- `digit` (OpcodeCleanup.re:46). -/
def isDigit (c : Char) : Bool := decide ('0' ≤ c) && decide (c ≤ '9')

/-- `absl::AsciiStrToLower` (OpcodeCleanup.re:22). -/
def lower (s : Name) : Name := s.map Char.toLower

/-- What follows a given text. -/
def strip : Name → Name → Option Name
  | [], s => some s
  | _ :: _, [] => none
  | p :: ps, c :: s => if p = c then strip ps s else none

/-- A literal. -/
def lit (p : String) (s : Name) : Option Name := strip p.toList s

/-- One of several literals: the one found and the rest. -/
def oneOf : List String → Name → Option (Name × Name)
  | [], _ => none
  | p :: ps, s =>
    match lit p s with
    | some r => some (p.toList, r)
    | none => oneOf ps s

/-- `number` (OpcodeCleanup.re:47) and the rest. -/
def num (s : Name) : Option (Name × Name) :=
  if s.takeWhile isDigit = [] then none else some (s.takeWhile isDigit, s.dropWhile isDigit)

/-- `number END`. -/
def numEnd (s : Name) : Option Name := if s ≠ [] ∧ s.all isDigit = true then some s else none

/-- `("_" any)? END`. -/
def optTail : Name → Option Name
  | [] => some []
  | c :: s => if c = '_' then some (c :: s) else none

/-- `END`. -/
def atEnd : Name → Option Unit
  | [] => some ()
  | _ :: _ => none

/-- The text after the last underscore. -/
def lastPart (s : Name) : Name := (s.reverse.takeWhile (· ≠ '_')).reverse

/-- `(any) "_cc" (number) END` becomes `…_oncc…` (OpcodeCleanup.re:60-63). -/
def oncc (s : Name) : Option Name :=
  if '_' ∈ s then do
    let d ← numEnd (← lit "cc" (lastPart s))
    return s.take (s.length - (lastPart s).length) ++ "oncc".toList ++ d
  else none

def lfoV1 : List String := ["amplfo", "fillfo", "pitchlfo"]
def egV1 : List String := ["ampeg", "fileg", "pitcheg"]

/-- OpcodeCleanup.re:91-94. -/
def rLfo (s : Name) : Option Name := do
  let (a, s) ← oneOf lfoV1 s
  let (b, s) ← oneOf ["depth", "freq", "fade"] (← lit "_" s)
  let n ← numEnd (← lit "cc" s)
  return a ++ "_".toList ++ b ++ "_oncc".toList ++ n

/-- OpcodeCleanup.re:95-98. -/
def rEg (s : Name) : Option Name := do
  let (a, s) ← oneOf egV1 s
  let (b, s) ← oneOf ["delay", "start", "attack", "hold", "decay", "sustain", "release"] (← lit "_" s)
  let n ← numEnd (← lit "cc" s)
  return a ++ "_".toList ++ b ++ "_oncc".toList ++ n

/-- OpcodeCleanup.re:99-102. -/
def rEgVel (s : Name) : Option Name := do
  let (a, s) ← oneOf egV1 s
  let x ← lit "_vel2" s
  return a ++ "_velto".toList ++ x

/-- OpcodeCleanup.re:103-106. -/
def rEq (s : Name) : Option Name := do
  let (d, s) ← num (← lit "eq" s)
  let (b, s) ← oneOf ["bw", "freq", "gain"] (← lit "_" s)
  let n ← numEnd (← lit "cc" s)
  return "eq".toList ++ d ++ "_".toList ++ b ++ "_oncc".toList ++ n

/-- OpcodeCleanup.re:107-110. -/
def rEqVel (s : Name) : Option Name := do
  let (d, s) ← num (← lit "eq" s)
  let x ← lit "_vel2" s
  return "eq".toList ++ d ++ "_velto".toList ++ x

/-- OpcodeCleanup.re:111-114. -/
def rLfoSub (s : Name) : Option Name := do
  let (d, s) ← num (← lit "lfo" s)
  let (b, s) ← oneOf ["wave", "offset", "ratio", "scale"] (← lit "_" s)
  atEnd s
  return "lfo".toList ++ d ++ "_".toList ++ b ++ "1".toList

/-- OpcodeCleanup.re:115-118. -/
def rLfoFil (s : Name) : Option Name := do
  let (d, s) ← num (← lit "lfo" s)
  let (b, s) ← oneOf ["cutoff", "resonance"] (← lit "_" s)
  let x ← optTail s
  return "lfo".toList ++ d ++ "_".toList ++ b ++ "1".toList ++ x

/-- OpcodeCleanup.re:119-122. -/
def rEgFil (s : Name) : Option Name := do
  let (d, s) ← num (← lit "eg" s)
  let (b, s) ← oneOf ["cutoff", "resonance"] (← lit "_" s)
  let x ← optTail s
  return "eg".toList ++ d ++ "_".toList ++ b ++ "1".toList ++ x

/-- A literal before one of several, and the end: the names that got an underscore (OpcodeCleanup.re:123-134). -/
def rJoin (p : String) (qs : List String) (s : Name) : Option Name := do
  let (b, s) ← oneOf qs (← lit p s)
  atEnd s
  return p.toList ++ "_".toList ++ b

/-- Names replaced as a whole (OpcodeCleanup.re:135-138, 144-152). -/
def rWhole (p q : String) (s : Name) : Option Name := do
  atEnd (← lit p s)
  return q.toList

/-- OpcodeCleanup.re:139-142. -/
def rFilType (s : Name) : Option Name := do
  let (d, s) ← num (← lit "fil" s)
  atEnd (← lit "type" s)
  return "fil".toList ++ d ++ "_type".toList

/-- A name and an optional tail (OpcodeCleanup.re:154-161, 181-188). -/
def rTail (p q : String) (s : Name) : Option Name := do
  let x ← optTail (← lit p s)
  return q.toList ++ x

/-- OpcodeCleanup.re:163-170. -/
def rOn (k : String) (s : Name) : Option Name := do
  let (b, s) ← oneOf ["hi", "lo"] (← lit "on_" s)
  let n ← numEnd (← lit k s)
  return "start_".toList ++ b ++ k.toList ++ n

/-- OpcodeCleanup.re:177-180. -/
def rFil (s : Name) : Option Name := do
  let x ← lit "fil_" s
  return "fil1_".toList ++ x

/-- OpcodeCleanup.re:190-193. -/
def rReal (s : Name) : Option Name := do
  let (b, s) ← oneOf ["hi", "lo"] s
  let n ← numEnd (← lit "realcc" s)
  return b ++ "hdcc".toList ++ n

/-- A name before a number (OpcodeCleanup.re:195-208, 229-232). -/
def rNum (p q : String) (s : Name) : Option Name := do
  let n ← numEnd (← lit p s)
  return q.toList ++ n

/-- The rules before the one that starts again (OpcodeCleanup.re:91-170). -/
def rulesA : List (Name → Option Name) :=
  [rLfo, rEg, rEgVel, rEq, rEqVel, rLfoSub, rLfoFil, rEgFil,
   rJoin "loop" ["mode", "start", "end"], rJoin "off" ["by", "mode"], rJoin "bend" ["up", "down", "step"],
   rWhole "filtype" "fil1_type", rFilType, rWhole "polyphony_group" "group", rWhole "gain_random" "amp_random",
   rTail "gain" "volume", rTail "tune" "pitch", rOn "cc", rOn "hdcc"]

/-- The rule that starts again: `"cutoff" (number)? "_random" END` (OpcodeCleanup.re:172-175). -/
def rRandom (s : Name) : Option Name := do
  let s ← lit "cutoff" s
  match num s with
  | some (d, s) => do
    atEnd (← lit "_random" s)
    return "fil".toList ++ d ++ "_random".toList
  | none => do
    atEnd (← lit "_random" s)
    return "fil".toList ++ "_random".toList

/-- The rules after it (OpcodeCleanup.re:177-208). -/
def rulesB : List (Name → Option Name) :=
  [rFil, rTail "cutoff" "cutoff1", rTail "resonance" "resonance1", rReal,
   rNum "loop_startcc" "loop_start_oncc", rNum "loop_lengthcc" "loop_end_oncc", rNum "loop_length_oncc" "loop_end_oncc"]

/-- The first rule that matches. -/
def firstOf (rs : List (Name → Option Name)) (s : Name) : Option Name := rs.findSome? (· s)

/-- The scanner of regions (OpcodeCleanup.re:78-220), with a bound on the number of restarts: `none` if it does not end,
`some none` if no rule matches. -/
def scan : Nat → Name → Option (Option Name)
  | 0, _ => none
  | fuel + 1, s =>
    match firstOf rulesA s with
    | some t => some (some t)
    | none =>
      match rRandom s with
      | some t => (scan fuel t).map fun r => some (r.getD t)
      | none => some (firstOf rulesB s)

/-- `OpcodeScope` (Opcode.h:45-60). -/
inductive Scope
  | generic | global | control | master | group | region | effect
deriving DecidableEq

/-- `cleanUpOpcodeName` (OpcodeCleanup.re:17-245). The patterns see the characters before the first null one; a name that no rule
matches is kept whole. -/
def cleanUp (raw : Name) (scope : Scope) : Option Name :=
  let s := lower raw
  let seen (s : Name) := s.takeWhile (· ≠ '\x00')
  match scope with
  | .region =>
    let s := (oncc (seen s)).getD s
    (scan 3 (seen s)).map (·.getD s)
  | .control => some ((rNum "set_realcc" "set_hdcc" (seen s)).getD s)
  | _ => some s

end Verif.Cleanup
