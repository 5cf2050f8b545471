/-!
Model of `decodeBase64` (`src/sfizz/utility/Base64.h:18-84`).

Characters are byte values. The C++ `char` may be negative for bytes above 127; no range tested by the
code contains such a value, so comparing the byte value instead is equivalent. `temp` is an `int32_t`
that never exceeds 24 bits, modelled as `Nat` with the bit operations the code uses.
-/
namespace Verif.Base64

/-- `' '`, `'\n'`, `'\t'`, `'\r'` (Base64.h:42). -/
def isSpace (c : Nat) : Bool := c == 32 || c == 10 || c == 9 || c == 13

/-- The alphabet ladder (Base64.h:45-56): the value or'ed into `temp`, `none` for `return {}`. -/
def value (c : Nat) : Option Nat :=
  if 0x41 ≤ c ∧ c ≤ 0x5A then some (c - 0x41)
  else if 0x61 ≤ c ∧ c ≤ 0x7A then some (c - 0x47)
  else if 0x30 ≤ c ∧ c ≤ 0x39 then some (c + 0x04)
  else if c = 0x2B then some 0x3E
  else if c = 0x2F then some 0x3F
  else none

/-- Local variables of the loop (Base64.h:34-39). -/
structure St where
  temp : Nat := 0
  position : Nat := 0
  decoded : List Nat := []

/-- One iteration on a non-space character (Base64.h:45-66). -/
def stepChar (s : St) (c : Nat) : Option St :=
  match value c with
  | none => none
  | some v =>
    let temp := s.temp ||| v
    if s.position + 1 = 4 then
      some { temp := 0, position := 0,
             decoded := s.decoded ++ [(temp >>> 16) &&& 0xFF, (temp >>> 8) &&& 0xFF, temp &&& 0xFF] }
    else some { s with temp := temp <<< 6, position := s.position + 1 }

/-- The loop (Base64.h:40-67). -/
def loop (s : St) : List Nat → Option St
  | [] => some s
  | c :: cs => if isSpace c then loop s cs else
      match stepChar s c with
      | none => none
      | some s' => loop s' cs

/-- The final `switch(position)` (Base64.h:69-83). -/
def finish (s : St) : List Nat :=
  match s.position with
  | 3 => s.decoded ++ [(s.temp >>> 16) &&& 0xFF, (s.temp >>> 8) &&& 0xFF]
  | 2 => s.decoded ++ [(s.temp >>> 10) &&& 0xFF]
  | 1 => []
  | _ => s.decoded

/-- The number of characters stripped at the end (Base64.h:23-32). -/
def padding (input : List Nat) : Nat :=
  (if input.length ≥ 1 ∧ input[input.length - 1]? = some 61 then 1 else 0) +
  (if input.length ≥ 2 ∧ input[input.length - 2]? = some 61 then 1 else 0)

/-- `decodeBase64` (Base64.h:18-84). -/
def decode (input : List Nat) : List Nat :=
  if input.isEmpty then [] else
    match loop {} (input.take (input.length - padding input)) with
    | none => []
    | some s => finish s

end Verif.Base64
