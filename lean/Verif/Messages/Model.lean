import Verif.Messages.Table

/-!
# Message dispatch

Models `hashByte`, `hash` (utility/StringViewHelpers.h:46-75), `hashMessagePath`
(SynthMessagingHelper.hpp:29-45), `MessagingHelper::match` (72-100), the `switch` of
`Synth::dispatchMessage` (SynthMessaging.cpp:19-20), and the functions that turn indices into elements
(SynthMessagingHelper.hpp:582-688).

C strings are lists of bytes without their terminating zero.  (A byte is a number; nothing depends on
its being below 256.)
-/

namespace Verif.Messages

/-- A byte is its number. -/
abbrev Bytes := List Nat

def codes (t : List Char) : Bytes := t.map Char.toNat

def ascii (t : String) : Bytes := codes t.toList

def amp : Nat := 38
def comma : Nat := 44

/-- `absl::ascii_isdigit` -/
def isDigit (c : Nat) : Bool := 48 ≤ c && c ≤ 57

/-- StringViewHelpers.h:58-61, in 64-bit arithmetic. -/
def hashByte (h : Nat) (c : Nat) : Nat := (h ^^^ c) * 16777619 % 18446744073709551616

/-- StringViewHelpers.h:72-75, from `Fnv1aBasis`. -/
def hash (s : Bytes) : Nat := s.foldl hashByte 2166136261

/-- SynthMessagingHelper.hpp:31-40 — the loop over the path.  `inNumber`: the inner `while` is
skipping the remaining digits of a number. -/
def hashPath : Bytes → Bool → Nat → Nat
  | [], _, h => h
  | c :: rest, inNumber, h =>
    if isDigit c then
      if inNumber then hashPath rest true h
      else hashPath rest true (hashByte h amp)
    else hashPath rest false (hashByte h c)

/-- SynthMessagingHelper.hpp:29-45 -/
def hashMessagePath (path sig : Bytes) : Nat :=
  sig.foldl hashByte (hashByte (hashPath path false 2166136261) comma)

/-- `strchr(pattern, '&')`, again and again: the literal pieces of a pattern. -/
def pieces : Bytes → List Bytes
  | [] => [[]]
  | c :: rest =>
    if c = amp then [] :: pieces rest
    else match pieces rest with
      | [] => [[c]]
      | p :: ps => (c :: p) :: ps

/-- `absl::SimpleAtoi` to an unsigned number, of a string of digits. -/
def atoi (d : Bytes) : Option Nat :=
  if d = [] then none else
  let v := d.foldl (fun a c => a * 10 + (c - 48)) 0
  if v < 4294967296 then some v else none

/-- SynthMessagingHelper.hpp:77-99 — `path` and the remaining pieces of the pattern. -/
def matchPieces : List Bytes → Bytes → List Nat → Option (List Nat)
  | [], _, _ => none
  | [last], path, idx => if path = last then some idx else none
  | piece :: rest, path, idx =>
    if idx.length = 8 then none
    else if path.take piece.length ≠ piece then none
    else
      let path1 := path.drop piece.length
      let digits := path1.takeWhile isDigit
      match atoi digits with
      | none => none
      | some v => matchPieces rest (path1.drop digits.length) (idx ++ [v])

/-- SynthMessagingHelper.hpp:72-100 -/
def «match» (pattern psig path sig : Bytes) : Option (List Nat) :=
  match matchPieces (pieces pattern) path [] with
  | some idx => if sig = psig then some idx else none
  | none => none

/-- The table as bytes. -/
def table : List (Bytes × Bytes) := rows.map fun r => (codes r.2.1, codes r.2.2)

/-- SynthMessaging.cpp:19-20 — `switch` on the hash, then `match`: the row whose handler runs, and the
indices it gets. -/
def dispatchIn (t : List (Bytes × Bytes)) (path sig : Bytes) : Option (Nat × List Nat) :=
  match t.findIdx? (fun r => hash (r.1 ++ comma :: r.2) == hashMessagePath path sig) with
  | none => none
  | some i =>
    match t[i]? with
    | none => none
    | some r => («match» r.1 r.2 path sig).map fun idx => (i, idx)

def dispatch (path sig : Bytes) : Option (Nat × List Nat) := dispatchIn table path sig

/-! ## Indices to elements -/

/-- What a handler gets: an element (by its number), no element, or an access out of bounds. -/
inductive Access where
  | element (i : Nat)
  | nothing
  | outOfBounds
deriving DecidableEq, Repr

/-- `v[i]` on a container of `n` elements. -/
def at' (n i : Nat) : Access := if i < n then .element i else .outOfBounds

/-- The number as `static_cast<int>` makes it. -/
def toInt (i : Nat) : Int := if i < 2147483648 then i else (i : Int) - 4294967296

/-- SynthMessagingHelper.hpp:582-590; the same for filters, equalizers, LFOs, sub-LFOs and flex EGs
(592-642). -/
def getBySize (n i : Nat) : Access := if n ≤ i then .nothing else at' n i

/-- SynthMessagingHelper.hpp:644-651 — `n` stored points, of which the first is not a user's point. -/
def getPoint (n i : Nat) : Access :=
  let idx := (i + 1) % 4294967296
  if n ≤ idx then .nothing else at' n idx

/-- SynthMessagingHelper.hpp:653-664 — `numVoices` as set, `n` voices existing. -/
def getVoice (numVoices n i : Nat) : Access :=
  if (numVoices : Int) ≤ toInt i then .nothing else at' n i

/-- SynthMessagingHelper.hpp:678-682 and the access to a table of `config::numCCs` entries
(SynthMessaging.cpp:57-59). -/
def getCC (i : Nat) : Access := if i ≤ 512 then at' 512 i else .nothing

/-- SynthMessagingHelper.hpp:684-688 and `getPolyAftertouch` (MidiState.cpp:194-201). -/
def getNote (i : Nat) : Access :=
  if toInt i ≤ 127 then (if toInt i < 0 ∨ 127 < toInt i then .nothing else at' 128 i) else .nothing

/-- SynthMessaging.cpp:474-485 — the gain to an effect bus. -/
def getEffect (n i : Nat) : Access :=
  if 0 < toInt i ∧ toInt i < (n : Int) then at' n i else .nothing

/-! ## Adding filters, equalizers and envelopes -/

/-- What one region has. -/
structure Counts where
  filters : Nat
  eqs : Nat
  egs : Nat
deriving DecidableEq, Repr

/-- The regions, and what every voice has room for (`settingsPerVoice_`, applied to all voices). -/
structure Rooms where
  regions : List Counts
  room : Counts
deriving DecidableEq, Repr

def maxOf (f : Counts → Nat) (l : List Counts) : Nat := l.foldl (fun m c => max m (f c)) 0

/-- Synth.cpp:720-722, 877-879, 943-953 — after loading. -/
def loaded (regions : List Counts) : Rooms :=
  { regions, room := ⟨maxOf (·.filters) regions, maxOf (·.eqs) regions, maxOf (·.egs) regions⟩ }

inductive Add where
  | filter (region : Nat)
  | eq (region : Nat)
  | eg (region : Nat)

/-- SynthMessaging.cpp:486-494, 518-526, 545-554 -/
def add (s : Rooms) : Add → Rooms
  | .filter i =>
    match s.regions[i]? with
    | none => s
    | some c =>
      { regions := s.regions.set i { c with filters := c.filters + 1 }
        room := { s.room with filters := max s.room.filters c.egs } }
  | .eq i =>
    match s.regions[i]? with
    | none => s
    | some c =>
      { regions := s.regions.set i { c with eqs := c.eqs + 1 }
        room := { s.room with eqs := max s.room.eqs c.egs } }
  | .eg i =>
    match s.regions[i]? with
    | none => s
    | some c =>
      { regions := s.regions.set i { c with egs := c.egs + 1 }
        room := { s.room with egs := max s.room.egs (c.egs + 1) } }

/-- Voice.cpp:510-516 — starting a voice for a region: is every filter and equalizer there? -/
def startOk (s : Rooms) (i : Nat) : Bool :=
  match s.regions[i]? with
  | none => true
  | some c => c.filters ≤ s.room.filters && c.eqs ≤ s.room.eqs

end Verif.Messages
