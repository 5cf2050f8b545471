/-!
Model of `BitArray<N>` / `BitSpan` / `ConstBitSpan` (`src/sfizz/utility/bit_array/BitArray.h`).
Bytes are `BitVec 8`; access outside of the byte vector is undefined behaviour (`none`).
-/
namespace Verif.BitArray

/-- `byte_size` (BitArray.h:20, 69). -/
def byteSize (n : Nat) : Nat := (n + 7) / 8

/-- `BitArray<N>`: `data_[byte_size()]` zero-initialised (BitArray.h:64, 86). -/
def init (n : Nat) : List (BitVec 8) := List.replicate (byteSize n) 0#8

/-- `1u << (i % 8)` converted to a byte. -/
def bit (i : Nat) : BitVec 8 := BitVec.ofNat 8 (1 <<< (i % 8))

/-- `test` (BitArray.h:21). -/
def test (d : List (BitVec 8)) (i : Nat) : Option Bool :=
  (d[i / 8]?).map (fun x => (x &&& bit i) != 0#8)

/-- Read-modify-write of the byte of bit `i`. -/
def modify (d : List (BitVec 8)) (i : Nat) (f : BitVec 8 → BitVec 8) : Option (List (BitVec 8)) :=
  match d[i / 8]? with
  | none => none
  | some x => some (d.set (i / 8) (f x))

/-- `set(i)` (BitArray.h:54). -/
def set (d : List (BitVec 8)) (i : Nat) := modify d i (· ||| bit i)
/-- `reset(i)` (BitArray.h:56). -/
def reset (d : List (BitVec 8)) (i : Nat) := modify d i (· &&& ~~~ bit i)
/-- `set(i, b)` (BitArray.h:55). -/
def setTo (d : List (BitVec 8)) (i : Nat) (b : Bool) := if b then set d i else reset d i
/-- `flip(i)` (BitArray.h:57). -/
def flip (d : List (BitVec 8)) (i : Nat) := modify d i (· ^^^ bit i)
/-- `clear()` (BitArray.h:53). -/
def clear (n : Nat) (_d : List (BitVec 8)) : List (BitVec 8) := List.replicate (byteSize n) 0#8

/-- `(1u << (n % 8)) - 1u`. -/
def lastMask (n : Nat) : BitVec 8 := BitVec.ofNat 8 ((1 <<< (n % 8)) - 1)

/-- `all()` (BitArray.h:22-30). -/
def all (n : Nat) (d : List (BitVec 8)) : Option Bool :=
  if (d.take (n / 8)).any (· != 0xff#8) then some false
  else if n % 8 = 0 then some true
  else (d[n / 8]?).map (fun x => x == lastMask n)

/-- `any()` (BitArray.h:31-39). -/
def any (n : Nat) (d : List (BitVec 8)) : Option Bool :=
  if (d.take (n / 8)).any (· != 0x00#8) then some true
  else if n % 8 = 0 then some false
  else (d[n / 8]?).map (fun x => (x &&& lastMask n) != 0#8)

/-- `none()` (BitArray.h:40). -/
def none' (n : Nat) (d : List (BitVec 8)) : Option Bool := (any n d).map (!·)

/-- Public mutators. -/
inductive Op where
  | set (i : Nat) | reset (i : Nat) | setTo (i : Nat) (b : Bool) | flip (i : Nat) | clear

def step (n : Nat) (d : List (BitVec 8)) : Op → Option (List (BitVec 8))
  | .set i => set d i
  | .reset i => reset d i
  | .setTo i b => setTo d i b
  | .flip i => flip d i
  | .clear => some (clear n d)

def run (n : Nat) (d : List (BitVec 8)) : List Op → Option (List (BitVec 8))
  | [] => some d
  | op :: ops => (step n d op).bind (run n · ops)

end Verif.BitArray
