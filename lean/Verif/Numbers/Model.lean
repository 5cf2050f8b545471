import Verif.Opcode.Model

/-!
Model of the reading of numbers with a fraction in the values of opcodes: `readLeadingFloat`
(/repo/src/sfizz/utility/StringViewHelpers.h:173-206) and `absl::SimpleAtof`. The number is the exact one: rounding to `float`, and the
infinities of numbers too large for it, are not modelled.
-/
namespace Verif.Numbers
open Verif.Opcode

/-- The sign (StringViewHelpers.h:178-179), and what follows. -/
def takeSign : Text → Text × Text
  | '+' :: t => (['+'], t)
  | '-' :: t => (['-'], t)
  | t => ([], t)

/-- The fraction (StringViewHelpers.h:183-187). -/
def takeFraction : Text → Text × Text
  | '.' :: t => ('.' :: t.takeWhile isDigit, t.dropWhile isDigit)
  | t => ([], t)

/-- The exponent (StringViewHelpers.h:189-198): the letter is taken whatever follows it. -/
def takeExponent : Text → Text × Text
  | 'e' :: c :: t =>
    if c = '+' ∨ c = '-' ∨ isDigit c = true then ('e' :: c :: t.takeWhile isDigit, t.dropWhile isDigit) else (['e'], c :: t)
  | ['e'] => (['e'], [])
  | t => ([], t)

/-- The part of a text given to `SimpleAtof`, `input.substr(0, numberEnd)` (StringViewHelpers.h:176-200). -/
def leadingFloat (s : Text) : Text :=
  let x := takeSign s
  let a := x.2.takeWhile isDigit
  let y := takeFraction (x.2.dropWhile isDigit)
  let z := takeExponent y.2
  x.1 ++ (a ++ (y.1 ++ z.1))

/-- The exponent of a number, which must be the rest of the text: `e` or `E`, a sign or none, digits. -/
def atofExponent : Text → Option Int
  | [] => some 0
  | c :: t =>
    if c = 'e' ∨ c = 'E' then
      let x := splitSign t
      if x.2 ≠ [] ∧ x.2.all isDigit = true then some (if x.1 then -(natVal x.2 : Int) else natVal x.2) else none
    else none

/-- The digits after the point. -/
def atofFraction : Text → Text × Text
  | '.' :: t => (t.takeWhile isDigit, t.dropWhile isDigit)
  | t => ([], t)

/-- `absl::SimpleAtof` on a text without white space: a sign or none, digits with a point or none, an exponent or none, and
nothing else. -/
def simpleAtof (s : Text) : Option ℚ :=
  let x := splitSign s
  let a := x.2.takeWhile isDigit
  let y := atofFraction (x.2.dropWhile isDigit)
  if a = [] ∧ y.1 = [] then none
  else
    match atofExponent y.2 with
    | none => none
    | some e => some ((if x.1 then -1 else 1) * (natVal (a ++ y.1) : ℚ) * (10 : ℚ) ^ (e - y.1.length))

/-- `readLeadingFloat` (StringViewHelpers.h:173-206). -/
def readLeadingFloat (s : Text) : Option ℚ := simpleAtof (leadingFloat s)

end Verif.Numbers
