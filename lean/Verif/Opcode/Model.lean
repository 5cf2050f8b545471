import Mathlib.Algebra.Order.Field.Rat
import Mathlib.Data.Nat.Notation
import Mathlib.Data.Rat.Floor

/-!
Model of `Opcode` (`src/sfizz/Opcode.{h,cpp}`) and of the text helpers it uses (`utility/StringViewHelpers.h`).

A text is a list of characters, one per byte (code below 256). The Abseil functions `SimpleAtoi`, `SimpleAtof` are
modelled after their documentation (their source is not part of the repository): surrounding white space is ignored, an
optional sign, digits, failure on overflow. Floats are exact rationals: rounding is not modelled.
`none` in the outer `Option` of `readNoteValue` is undefined behaviour.
-/
namespace Verif.Opcode

abbrev Text := List Char

/-- `absl::ascii_isdigit`. -/
def isDigit (c : Char) : Bool := decide ('0' ≤ c) && decide (c ≤ '9')

/-- The characters of `" \r\t\n\f\v"`; also `absl::ascii_isspace`. -/
def isSpace (c : Char) : Bool :=
  c == ' ' || c == '\r' || c == '\t' || c == '\n' || c == '\x0c' || c == '\x0b'

/-- `trim` (StringViewHelpers.h:24-46). -/
def trim (s : Text) : Text := ((s.dropWhile isSpace).reverse.dropWhile isSpace).reverse

/-- Value of a digit. -/
def digitVal (c : Char) : Nat := c.toNat - 48

/-- Value of a string of digits. -/
def natVal (s : Text) : Nat := s.foldl (fun n c => 10 * n + digitVal c) 0

/-! ### Hashes -/

/-- `hashByte` (StringViewHelpers.h:58-61). -/
def hashByte (h : UInt64) (c : Char) : UInt64 := (h ^^^ UInt64.ofNat (c.toNat % 256)) * 0x01000193

/-- `Fnv1aBasis` (StringViewHelpers.h:48). -/
def basis : UInt64 := 0x811C9DC5

/-- `hash` (StringViewHelpers.h:72-75). -/
def hash (s : Text) (h : UInt64 := basis) : UInt64 := s.foldl hashByte h

/-- `hashNoAmpersand` (StringViewHelpers.h:86-93). -/
def hashNoAmpersand (s : Text) (h : UInt64 := basis) : UInt64 := s.foldl (fun h c => if c = '&' then h else hashByte h c) h

/-! ### The constructor -/

/-- What the constructor computes from the name. -/
structure Parts where
  hash : UInt64 := basis
  parameters : List Nat := []
  deriving DecidableEq

/-- One number of the name (Opcode.cpp:36-41): `SimpleAtoi` into a `uint32_t`, kept as `uint16_t`. -/
def addNumber (p : Parts) (digits : Text) : Parts :=
  if natVal digits < 2 ^ 32 then
    { hash := Opcode.hash ['&'] p.hash, parameters := p.parameters ++ [natVal digits % 2 ^ 16] }
  else p

theorem dropWhile_lt {p : Char → Bool} : ∀ {s : Text}, (s.dropWhile p).length ≤ s.length := by
  intro s
  exact (List.dropWhile_sublist p).length_le

/-- The loop of the constructor (Opcode.cpp:27-47) from `nextCharIndex` on. -/
def scan (s : Text) (p : Parts) : Parts :=
  let letters := s.takeWhile (fun c => !isDigit c)
  let p := { p with hash := hashNoAmpersand letters p.hash }
  match h : s.dropWhile (fun c => !isDigit c) with
  | [] => p
  | d :: rest => scan ((d :: rest).dropWhile isDigit) (addNumber p ((d :: rest).takeWhile isDigit))
termination_by s.length
decreasing_by
  have h1 : (d :: rest).length ≤ s.length := h ▸ dropWhile_lt
  have hd : isDigit d = true := by
    have hh := @List.head?_dropWhile_not Char (fun c => !isDigit c) s
    rw [h] at hh
    simpa using hh
  have h2 : ((d :: rest).dropWhile isDigit).length ≤ rest.length := by
    rw [List.dropWhile_cons_of_pos hd]; exact dropWhile_lt
  simp only [List.length_cons] at h1
  omega

/-- The constructor `Opcode::Opcode` (Opcode.cpp:22-48), without the category. -/
def decompose (input : Text) : Parts := scan (trim input) {}

/-- The loop of `getLetterOnlyName` (Opcode.cpp:65-75). -/
def letterLoop : Text → Bool → Text
  | [], _ => []
  | c :: s, wasDigit =>
    if isDigit c then (if wasDigit then letterLoop s true else '&' :: letterLoop s true)
    else c :: letterLoop s false

/-- `getLetterOnlyName` (Opcode.cpp:58-78) on the (trimmed) name. -/
def letterOnlyName (name : Text) : Text := letterLoop name false

/-! ### Categories -/

/-- `OpcodeCategory` (Opcode.h:28-39). -/
inductive Category where
  | normal | onCc | curveCc | stepCc | smoothCc
  deriving DecidableEq, Repr

/-- `extractBackInteger` (Opcode.cpp:50-56). -/
def backInteger (s : Text) : Text := (s.reverse.takeWhile isDigit).reverse

/-- The name without its `extractBackInteger`. -/
def dropBackInteger (s : Text) : Text := (s.reverse.dropWhile isDigit).reverse

/-- `absl::EndsWith`. -/
def endsWith (s suffix : Text) : Bool := suffix.reverse.isPrefixOf s.reverse

/-- `identifyCategory` (Opcode.cpp:126-144). -/
def identifyCategory (name : Text) : Category :=
  if backInteger name ≠ [] then
    let part := dropBackInteger name
    if endsWith part "_oncc".toList || endsWith part "_cc".toList then .onCc
    else if endsWith part "_curvecc".toList then .curveCc
    else if endsWith part "_stepcc".toList then .stepCc
    else if endsWith part "_smoothcc".toList then .smoothCc
    else .normal
  else .normal

/-- `derivedName.resize(name.rfind('_'))` (Opcode.cpp:93-95). -/
def beforeLastUnderscore (s : Text) : Text := (((s.reverse.dropWhile (· ≠ '_')).drop 1)).reverse

/-- The suffix of a category (Opcode.cpp:109-120). -/
def suffixOf : Category → Option Text
  | .normal => none
  | .onCc => some "_oncc".toList
  | .curveCc => some "_curvecc".toList
  | .stepCc => some "_stepcc".toList
  | .smoothCc => some "_smoothcc".toList

/-- `getDerivedName` (Opcode.cpp:80-124); `number = none` is the default argument `~0u`. -/
def derivedName (name : Text) (category new : Category) (number : Option Nat) : Text :=
  let base := if category = .normal then name else beforeLastUnderscore name
  match suffixOf new with
  | none => base
  | some suf => base ++ suf ++ (match number with | some n => (toString n).toList | none => backInteger name)

/-! ### Numbers -/

/-- The sign of a number. -/
def splitSign : Text → Bool × Text
  | '+' :: s => (false, s)
  | '-' :: s => (true, s)
  | s => (false, s)

/-- `absl::SimpleAtoi` for a type with values `lo..hi` (`lo = 0` for unsigned types, which take no minus sign). -/
def simpleAtoi (lo hi : Int) (s : Text) : Option Int :=
  let (neg, ds) := splitSign (trim s)
  if ds = [] ∨ ds.all isDigit = false then none
  else if neg = true ∧ lo = 0 then none
  else
    let v : Int := if neg then -(natVal ds : Int) else natVal ds
    if lo ≤ v ∧ v ≤ hi then some v else none

def int64Min : Int := -2 ^ 63
def int64Max : Int := 2 ^ 63 - 1
def int32Min : Int := -2 ^ 31
def int32Max : Int := 2 ^ 31 - 1

/-- The part of a text read by `readLeadingInt` (StringViewHelpers.h:145-151). -/
def leadingInt (s : Text) : Text :=
  match s with
  | '+' :: t => '+' :: t.takeWhile isDigit
  | '-' :: t => '-' :: t.takeWhile isDigit
  | t => t.takeWhile isDigit

/-- `readLeadingInt<int64_t>` (StringViewHelpers.h:143-160). -/
def readLeadingInt (s : Text) : Option Int := simpleAtoi int64Min int64Max (leadingInt s)

/-! ### Notes -/

/-- `offsetsABCDEFG` (Opcode.cpp:265-266) for a lower-case letter. -/
def letterOffset (c : Char) : Option Int :=
  if c = 'a' then some 9 else if c = 'b' then some 11 else if c = 'c' then some 0 else if c = 'd' then some 2
  else if c = 'e' then some 4 else if c = 'f' then some 5 else if c = 'g' then some 7 else none

/-- `absl::ascii_tolower`. -/
def toLower (c : Char) : Char := if 'A' ≤ c ∧ c ≤ 'Z' then Char.ofNat (c.toNat + 32) else c

/-- The bytes of `♯` and `♭` in UTF-8. -/
def sharpSign : Text := ['\u00e2', '\u0099', '\u00af']
def flatSign : Text := ['\u00e2', '\u0099', '\u00ad']

/-- The accidental: shift and rest, or `none` when the letter does not take it (Opcode.cpp:269-293). -/
def accidental (letter : Char) (s : Text) : Option (Int × Text) :=
  let sharpOk : Bool := decide (letter ∈ ['c', 'd', 'f', 'g', 'a'])
  let flatOk : Bool := decide (letter ∈ ['d', 'e', 'g', 'a', 'b'])
  match s with
  | '#' :: t => if sharpOk then some (1, t) else none
  | '\u00e2' :: '\u0099' :: '\u00af' :: t => if sharpOk then some (1, t) else none
  | 'b' :: t => if flatOk then some (-1, t) else none
  | '\u00e2' :: '\u0099' :: '\u00ad' :: t => if flatOk then some (-1, t) else none
  | t => some (0, t)

/-- `int` arithmetic: `none` on overflow. -/
def intRange (x : Int) : Option Int := if int32Min ≤ x ∧ x ≤ int32Max then some x else none

/-- `noteNumber += (octaveNumber + 1) * 12` (Opcode.cpp:299): undefined on overflow. -/
def octaveShift (note octave : Int) : Option Int := do
  let a ← intRange (octave + 1)
  let b ← intRange (a * 12)
  intRange (note + b)

/-- `readNoteValue` (Opcode.cpp:258-305). The outer `none` is undefined behaviour: `remove_prefix(1)` on an empty view
(line 261), or signed overflow (line 299). -/
def readNoteValue (value : Text) : Option (Option Nat) :=
  match value with
  | [] => none
  | c :: rest =>
    let letter := toLower c
    match letterOffset letter with
    | none => some none
    | some offset =>
      match accidental letter rest with
      | none => some none
      | some (shift, rest) =>
        match simpleAtoi int32Min int32Max rest with
        | none => some none
        | some octave =>
          match octaveShift (offset + shift) octave with
          | none => none
          | some n => some (if n < 0 ∨ n ≥ 128 then none else some n.toNat)

/-! ### Values and bounds -/

/-- `OpcodeSpec` (Defaults.h:75-83): bounds and flags. -/
structure Spec (α : Type) where
  dflt : α
  lo : α
  hi : α
  canBeNote : Bool := false
  enforceLower : Bool := false
  enforceUpper : Bool := false
  permissiveLower : Bool := false
  permissiveUpper : Bool := false

/-- The bounds checks common to `transformInt_` (Opcode.cpp:151-161) and `transformFloat_` (Opcode.cpp:218-228): the
value returned at once (`some (some b)`), rejection (`some none`), or going on (`none`). -/
def checkBounds {α : Type} [LinearOrder α] (spec : Spec α) (v : α) : Option (Option α) :=
  if v > spec.hi then
    if spec.enforceUpper then some (some spec.hi) else if !spec.permissiveUpper then some none else none
  else if v < spec.lo then
    if spec.enforceLower then some (some spec.lo) else if !spec.permissiveLower then some none else none
  else none

/-- `transformInt_` (Opcode.cpp:146-167) for a type with values `tmin..tmax`. -/
def transformInt (tmin tmax : Int) (spec : Spec Int) (v : Int) : Option Int :=
  match checkBounds spec v with
  | some r => r
  | none => some (min (max v tmin) tmax)

/-- `readInt_` (Opcode.cpp:169-189); the outer `none` as in `readNoteValue`. -/
def readInt (tmin tmax : Int) (spec : Spec Int) (v : Text) : Option (Option Int) :=
  match readLeadingInt v with
  | some x => some (transformInt tmin tmax spec x)
  | none =>
    if spec.canBeNote then
      match readNoteValue v with
      | none => none
      | some none => some none
      | some (some k) => some (transformInt tmin tmax spec k)
    else some none

/-- `read` (Opcode.h:122): the default when nothing could be read. Integer types have no normalization here. -/
def readIntOr (tmin tmax : Int) (spec : Spec Int) (v : Text) : Option Int :=
  (readInt tmin tmax spec v).map (fun r => r.getD spec.dflt)

/-- `wrapPhase` (MathHelpers.h:322-327); `static_cast<int>` truncates towards zero. -/
def wrapPhase (v : ℚ) : ℚ :=
  let w := v - (if 0 ≤ v then (⌊v⌋ : ℚ) else (⌈v⌉ : ℚ))
  if w < 0 then w + 1 else w

/-- `transformFloat_` (Opcode.cpp:212-231); `normalize` is `spec.normalizeInput`. -/
def transformFloat (spec : Spec ℚ) (wrap : Bool) (normalize : ℚ → ℚ) (v : ℚ) : Option ℚ :=
  let v := if wrap then wrapPhase v else v
  match checkBounds spec v with
  | some r => r
  | none => some (normalize v)

/-- `absl::EqualsIgnoreCase`. -/
def equalsIgnoreCase (a b : Text) : Bool := a.map toLower == b.map toLower

/-- `readBoolean` (Opcode.cpp:314-332). -/
def readBoolean (v : Text) : Option Bool :=
  if equalsIgnoreCase v "off".toList then some false
  else if equalsIgnoreCase v "on".toList then some true
  else (readLeadingInt v).map (fun x => decide (x ≠ 0))

end Verif.Opcode
