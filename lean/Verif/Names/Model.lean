import Verif.BitArray.Model

/-!
Model of the document of names that the engine exports: `Synth::exportMidnam` (/repo/src/sfizz/Synth.cpp:1678-1780, told to users
as `sfizz_export_midnam` and `Sfizz::exportMidnam`), the writing of XML by pugixml
(/repo/src/external/pugixml/src/pugixml.cpp:3961-4376, 7451-7477), and the names of key-switches
(Synth.cpp:817-832, 2352-2362).

Simplifications. Texts are lists of characters, each standing for a byte. A document is the list of what pugixml meets when it walks the
tree in order, not the tree of pointers. The writer keeps its output in one text; its buffer of 2048 bytes is not modelled.
-/
namespace Verif.Names

abbrev Text := List Char

/-- What pugixml meets on its way through a document (`node_output`, pugixml.cpp:4288-4376). -/
inductive Item where
  /-- `node_doctype` -/
  | doctype (value : Text)
  /-- `node_comment` -/
  | comment (value : Text)
  /-- `node_pcdata` -/
  | text (value : Text)
  /-- An element with children, on the way in. -/
  | start (name : Text) (attributes : List (Text × Text))
  /-- An element without children. -/
  | empty (name : Text) (attributes : List (Text × Text))
  /-- An element with children, on the way out. -/
  | stop (name : Text)
deriving DecidableEq, Repr

/-- An element and what is below it. -/
def element (name : Text) (attributes : List (Text × Text)) (children : List Item) : List Item :=
  match children with
  | [] => [.empty name attributes]
  | c :: cs => .start name attributes :: (c :: cs) ++ [.stop name]

/-- `c_str()` as an argument of `set_value`: the text up to the first null. -/
def cstr (s : Text) : Text := s.takeWhile (fun c => c != '\x00')

/-! ### The writer of pugixml -/

/-- `&#dd;` (pugixml.cpp:4005). -/
def reference (c : Char) : Text := ['&', '#', Nat.digitChar (c.toNat / 10), Nat.digitChar (c.toNat % 10), ';']

/-- `text_output_escaped` for a character, with `ctx_special_attr` (pugixml.cpp:3961-4010; the table 1906-1929), without
`format_attribute_single_quote`. -/
def escapeAttribute (c : Char) : Text :=
  if c = '&' then ['&', 'a', 'm', 'p', ';']
  else if c = '<' then ['&', 'l', 't', ';']
  else if c = '"' then ['&', 'q', 'u', 'o', 't', ';']
  else if c.toNat < 32 then reference c
  else [c]

/-- `text_output_escaped` for a character, with `ctx_special_pcdata`. -/
def escapeText (c : Char) : Text :=
  if c = '&' then ['&', 'a', 'm', 'p', ';']
  else if c = '<' then ['&', 'l', 't', ';']
  else if c = '>' then ['&', 'g', 't', ';']
  else if c.toNat < 32 ∧ c ≠ '\t' ∧ c ≠ '\n' ∧ c ≠ '\r' then reference c
  else [c]

/-- `node_output_attributes` for an attribute (pugixml.cpp:4129-4155). -/
def writeAttribute (a : Text × Text) : Text := ' ' :: a.1 ++ ['=', '"'] ++ a.2.flatMap escapeAttribute ++ ['"']

/-- `node_output_comment` (pugixml.cpp:4083-4105), for the text inside. -/
def writeComment : Text → Text
  | [] => []
  | '-' :: [] => ['-', ' ']
  | '-' :: '-' :: r => '-' :: ' ' :: writeComment ('-' :: r)
  | c :: r => c :: writeComment r

/-- `node_output_start` (4157-4217), `node_output_end` (4219-4227), `node_output_simple` (4229-4277). -/
def writeTag : Item → Text
  | .doctype v => ['<', '!', 'D', 'O', 'C', 'T', 'Y', 'P', 'E', ' '] ++ v ++ ['>']
  | .comment v => ['<', '!', '-', '-'] ++ writeComment v ++ ['-', '-', '>']
  | .text v => v.flatMap escapeText
  | .start n as => '<' :: n ++ as.flatMap writeAttribute ++ ['>']
  | .empty n as => '<' :: n ++ as.flatMap writeAttribute ++ [' ', '/', '>']
  | .stop n => ['<', '/'] ++ n ++ ['>']

/-- `node_output` (pugixml.cpp:4288-4376), from some place on: `depth`, and the two bits of `indent_flags`. -/
def write (depth : Nat) (newline indent : Bool) : List Item → Text
  | [] => if newline then ['\n'] else []
  | .text v :: is => writeTag (.text v) ++ write depth false false is
  | .stop n :: is =>
    (if newline then ['\n'] else []) ++ (if indent then List.replicate (depth - 1) '\t' else []) ++ writeTag (.stop n) ++
      write (depth - 1) true true is
  | .start n as :: is =>
    (if newline then ['\n'] else []) ++ (if indent then List.replicate depth '\t' else []) ++ writeTag (.start n as) ++
      write (depth + 1) true true is
  | i :: is =>
    (if newline then ['\n'] else []) ++ (if indent then List.replicate depth '\t' else []) ++ writeTag i ++ write depth true true is

/-- What is between `<?` and `?>` (pugixml.cpp:7469). -/
def declaration : Text := "xml version=\"1.0\"".toList

/-- `xml_document::save` with its default arguments (pugixml.cpp:7451-7477; pugixml.hpp:1101). -/
def save (items : List Item) : Text := '<' :: '?' :: declaration ++ ['?', '>', '\n'] ++ write 0 false true items

/-! ### The document -/

def wControl : Text := "Control".toList
def wNote : Text := "Note".toList
def wNumber : Text := "Number".toList
def wName : Text := "Name".toList
def wType : Text := "Type".toList
def wModel : Text := "Model".toList
def wUnnamed : Text := "Unnamed CC ".toList

/-- `std::to_string` of a number that is not negative. -/
def decimal (n : Nat) : Text := Nat.toDigits 10 n

/-- An entry for a controller (Synth.cpp:1745-1748, 1754-1757). -/
def controlEntry (n : Nat) (name : Text) : Item :=
  .empty wControl [(wType, "7bit".toList), (wNumber, decimal n), (wName, cstr name)]

/-- An entry for a key (Synth.cpp:1766-1768, 1771-1773). -/
def noteEntry (n : Nat) (name : Text) : Item := .empty wNote [(wNumber, decimal n), (wName, cstr name)]

/-- Synth.cpp:1742-1759: `used` is the result of `getUsedCCs()`. Clearing the bit of a controller outside of the 512 is undefined. -/
def controlEntries (labels : List (Nat × Text)) (used : List (BitVec 8)) : Option (List Item) :=
  match labels.foldlM (fun d p => BitArray.setTo d p.1 false) used with
  | none => none
  | some anonymous =>
    some ((labels.filter (fun p => p.1 < 128)).map (fun p => controlEntry p.1 p.2) ++
      ((List.range 128).filter (fun i => BitArray.test anonymous i == some true)).map (fun i => controlEntry i (wUnnamed ++ decimal i)))

/-- What the engine holds that the document tells: `ccLabels_`, `keyLabels_`, `keyswitchLabels_`, and the controllers in use. -/
structure Engine where
  controls : List (Nat × Text)
  keys : List (Nat × Text)
  switches : List (Nat × Text)
  used : List (BitVec 8)

/-- The head of the document (Synth.cpp:1687-1716), for the name of the model. -/
def headItems (model : Text) : List Item :=
  [.doctype "MIDINameDocument PUBLIC \"-//MIDI Manufacturers Association//DTD MIDINameDocument 1.0//EN\" \"http://www.midi.org/dtds/MIDINameDocument10.dtd\"".toList,
   .start "MIDINameDocument".toList [],
   .comment "Generated by Sfizz for the current instrument".toList,
   .empty "Author".toList [],
   .start "MasterDeviceNames".toList [],
   .start "Manufacturer".toList [], .text "The Sfizz authors".toList, .stop "Manufacturer".toList,
   .start wModel [], .text (cstr model), .stop wModel]

/-- The channels (Synth.cpp:1706-1735). -/
def channelItems : List Item :=
  element "CustomDeviceMode".toList [(wName, "Default".toList)]
    (element "ChannelNameSetAssignments".toList []
      ((List.range 16).map (fun c => .empty "ChannelNameSetAssign".toList [("Channel".toList, decimal (c + 1)), ("NameSet".toList, "Play".toList)]))) ++
  element "ChannelNameSet".toList [(wName, "Play".toList)]
    (element "AvailableForChannels".toList []
      ((List.range 16).map (fun c => .empty "AvailableChannel".toList [("Channel".toList, decimal (c + 1)), ("Available".toList, "true".toList)])) ++
     [.empty "UsesControlNameList".toList [(wName, "Controls".toList)], .empty "UsesNoteNameList".toList [(wName, "Notes".toList)]])

/-- `exportMidnam` (Synth.cpp:1678-1780), before it is written. -/
def document (e : Engine) (model : Text) : Option (List Item) :=
  match controlEntries e.controls e.used with
  | none => none
  | some cs =>
    some (headItems (if model = [] then "Sfizz".toList else model) ++ channelItems ++
      element "ControlNameList".toList [(wName, "Controls".toList)] cs ++
      element "NoteNameList".toList [(wName, "Notes".toList)]
        (e.switches.map (fun p => noteEntry p.1 p.2) ++ e.keys.map (fun p => noteEntry p.1 p.2)) ++
      [.stop "MasterDeviceNames".toList, .stop "MIDINameDocument".toList])

/-- `exportMidnam` (Synth.cpp:1678-1780). -/
def exportNames (e : Engine) (model : Text) : Option Text := (document e model).map save

/-! ### Names of key-switches -/

/-- What a region says of key-switches: `lastKeyswitch`, `lastKeyswitchRange`, `keyswitchLabel`. -/
structure Switch where
  last : Option Nat := none
  range : Option (Nat × Nat) := none
  label : Option Text := none

/-- `setCCLabel`, `setKeyLabel`, `setKeyswitchLabel` (Synth.cpp:2316-2362). -/
def setLabel (k : Nat) (s : Text) (l : List (Nat × Text)) : List (Nat × Text) :=
  if l.any (fun p => p.1 = k) then l.map (fun p => if p.1 = k then (k, s) else p) else l ++ [(k, s)]

/-- Synth.cpp:817-832 for a region that is kept. Keys are at most 127, so the counter of the loop does not wrap around. -/
def nameSwitches (l : List (Nat × Text)) (r : Switch) : List (Nat × Text) :=
  match r.label with
  | none => l
  | some s =>
    let l := match r.last with
      | some k => setLabel k s l
      | none => l
    match r.range with
    | some (lo, hi) => (List.range' lo (hi + 1 - lo)).foldl (fun l k => setLabel k s l) l
    | none => l

/-- `keyswitchLabels_` after a load: cleared (Synth.cpp:306), then filled region by region. -/
def switchNames (rs : List Switch) : List (Nat × Text) := rs.foldl nameSwitches []

end Verif.Names
