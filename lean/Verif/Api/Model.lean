import Mathlib.Data.List.Basic
import Mathlib.Logic.Basic

/-!
Model of what the C interface adds to the engine (`src/sfizz/sfizz_wrapper.cpp`, `src/sfizz/sfizz_private.hpp`): the reference count of
an engine, the list of unknown opcodes, the label getters.

Memory is a partial map from addresses to strings: `none` is memory that is not allocated (any more). Text is a list of characters; the
terminating null is explicit where the code writes it. Not modelled: the functions of the wrapper that pass their arguments on to
`Synth` without looking at them.
-/
namespace Verif.Api

abbrev Text := List Char

/-! ### Reference counts -/

/-- An engine as its holders see it (sfizz_private.hpp:11-37): the counter of type `size_t` (64 bits), the threads that are about to delete
the object, and how often it was deleted. Using an object that is deleted is undefined: `none` in the functions below. -/
structure Handle where
  rc : Nat
  deleting : Nat
  deleted : Nat
  deriving DecidableEq, Repr

/-- `sfizz_create_synth` (sfizz_wrapper.cpp:19-22; sfizz_private.hpp:13). -/
def create : Handle := ⟨1, 0, 0⟩

/-- `sfizz_add_ref` (sfizz_wrapper.cpp:69-72): `remember`, `rc.fetch_add(1)` (sfizz_private.hpp:24-27). -/
def addRef (h : Handle) : Option Handle :=
  if h.deleted = 0 then some { h with rc := (h.rc + 1) % 2 ^ 64 } else none

/-- `sfizz_free` (sfizz_wrapper.cpp:74-77), first step: `forget`, `rc.fetch_sub(1)` and the comparison of the former value with 1
(sfizz_private.hpp:29-31). -/
def free (h : Handle) : Option Handle :=
  if h.deleted = 0 then
    some { h with rc := (h.rc + 2 ^ 64 - 1) % 2 ^ 64, deleting := if h.rc = 1 then h.deleting + 1 else h.deleting }
  else none

/-- `sfizz_free`, second step, of a thread that read 1: `delete this` (sfizz_private.hpp:32). -/
def destroy (h : Handle) : Option Handle :=
  if h.deleted = 0 then some { h with deleting := h.deleting - 1, deleted := 1 } else none

/-- A step of any other function of the interface: it reads the engine. -/
def use (h : Handle) : Option Handle := if h.deleted = 0 then some h else none

/-! ### Unknown opcodes -/

/-- `totalLength` (sfizz_wrapper.cpp:291-293). -/
def totalLength (names : List Text) : Nat := (names.map (fun n => n.length + 1)).sum

/-- The loop (sfizz_wrapper.cpp:300-305): what was written so far, and each name with what follows it. The comparison with the last name is
by value. -/
def writeNames (last : Text) : List Text → Text → Text
  | [], out => out
  | n :: rest, out => writeNames last rest (out ++ n ++ [if n = last then '\x00' else ','])

/-- What `sfizz_get_unknown_opcodes` returns: the bytes allocated, and those written (sfizz_wrapper.cpp:288-307); `none` is the null pointer. -/
def unknownOpcodes (names : List Text) : Option (Nat × Text) :=
  if totalLength names = 0 then none
  else some (totalLength names, writeNames (names.getLast?.getD []) names [])

/-- What a C program reads at the address: the characters before the first null; `none` when it runs past the bytes allocated. -/
def cString : Text → Option Text
  | [] => none
  | c :: rest => if c = '\x00' then some [] else (cString rest).map (c :: ·)

/-- `buildRegion` on the names of opcodes (Synth.cpp:165-175): one that is refused is remembered, unless it is already. -/
def remember (unknown : List Text) (o : Text × Bool) : List Text :=
  if o.1 ∈ unknown then unknown else if o.2 then unknown else unknown ++ [o.1]

/-- All the opcodes of an instrument, each with its fate, from the empty list of `clear` (Synth.cpp:311). -/
def unknownAfter (os : List (Text × Bool)) : List Text := os.foldl remember []

/-! ### Labels -/

/-- A label (`NoteNamePair`, `CCNamePair`, SfzHelpers.h): the number, and the address of its text. -/
structure Label where
  number : Nat
  address : Nat
  deriving DecidableEq, Repr

/-- The memory, and the first address never given out. -/
structure Memory where
  at_ : Nat → Option Text
  next : Nat

def Memory.alloc (m : Memory) (t : Text) : Memory × Nat :=
  ({ at_ := fun a => if a = m.next then some t else m.at_ a, next := m.next + 1 }, m.next)

def Memory.release (m : Memory) (addresses : List Nat) : Memory :=
  { m with at_ := fun a => if a ∈ addresses then none else m.at_ a }

/-- Copying a vector of labels: `const auto keyLabels = synth->synth.getKeyLabels()` (sfizz_wrapper.cpp:370, 387, 404, 421). The getter
returns a reference (Synth.h:707, 713), but `auto` does not make one: each text is copied. -/
def copyLabels (m : Memory) : List Label → Memory × List Label
  | [] => (m, [])
  | l :: rest =>
    let a := m.alloc ((m.at_ l.address).getD [])
    let r := copyLabels a.1 rest
    (r.1, ⟨l.number, a.2⟩ :: r.2)

/-- `SFIZZ_OUT_OF_BOUNDS_LABEL_INDEX` (sfizz.h). -/
def outOfBounds : Int := -1

/-- `sfizz_get_num_key_labels`, `sfizz_get_num_cc_labels` (sfizz_wrapper.cpp:363-366, 397-400). -/
def numLabels (labels : List Label) : Nat := labels.length

/-- `sfizz_get_key_label_number`, `sfizz_get_cc_label_number` (sfizz_wrapper.cpp:368-383, 402-417). -/
def labelNumber (m : Memory) (labels : List Label) (index : Int) : Int :=
  let copy := (copyLabels m labels).2
  if index < 0 then outOfBounds
  else
    match copy[index.toNat]? with
    | none => outOfBounds
    | some l => l.number

/-- `sfizz_get_key_label_text`, `sfizz_get_cc_label_text` (sfizz_wrapper.cpp:385-395, 419-429): the pointer returned (`none`: null), and the
memory after the return, when the local copy is destroyed. -/
def labelText (m : Memory) (labels : List Label) (index : Int) : Memory × Option Nat :=
  let r := copyLabels m labels
  let after := r.1.release (r.2.map Label.address)
  if index < 0 then (after, none)
  else (after, (r.2[index.toNat]?).map Label.address)

/-- The same getter with `const auto&`: the repair. -/
def labelTextByReference (m : Memory) (labels : List Label) (index : Int) : Memory × Option Nat :=
  if index < 0 then (m, none) else (m, (labels[index.toNat]?).map Label.address)

end Verif.Api
