import Verif.Parser.Print
import Verif.Loader.Region
import Verif.Opcode.Values

/-!
Model of the import of foreign instruments: `src/sfizz/import/sfizz_import.cpp`, `import/ForeignInstrument.cpp`,
`import/foreign_instruments/AudioFile.cpp`, `import/foreign_instruments/DecentSampler.cpp`, and of the `sample` opcode of regions
(`Region.cpp:61-75`).

Both importers write the text of an instrument, which is then read by `loadSfzString`: see `Verif.Parser` and `Verif.Loader`. Paths are texts
with `/` between the names (POSIX). A DecentSampler preset is the tree of its elements and attributes: the reading of XML (pugixml) is not
modelled. How real numbers are read and written is a parameter.
-/
namespace Verif.Import
open Verif.Opcode (trim toLower readLeadingInt equalsIgnoreCase octaveText decimal)
open Verif.Parser (Item Piece)
open Verif.Loader (seen)

abbrev Text := List Char

/-- `fs::path::filename`: what follows the last slash. -/
def fileName (path : Text) : Text := (path.reverse.takeWhile (· ≠ '/')).reverse

/-- `fs::path::parent_path` of a path with a file name, as a prefix: all up to the last slash, with it. -/
def directory (path : Text) : Text := (path.reverse.dropWhile (· ≠ '/')).reverse

/-- `fs::path::extension`: from the last dot of the file name on, unless this dot comes first (and there is no other), or the name is `..`. -/
def extension (path : Text) : Text :=
  let n := fileName path
  if n = "..".toList then []
  else
    let ext := (n.reverse.takeWhile (· ≠ '.')).reverse
    if '.' ∉ n ∨ ext.length + 1 = n.length then [] else '.' :: ext

/-- `kRecognizedAudioExtensions` (AudioFile.cpp:17-19). -/
def audioExtensions : List Text :=
  [".wav".toList, ".flac".toList, ".ogg".toList, ".mp3".toList, ".aif".toList, ".aiff".toList, ".aifc".toList, ".wv".toList]

inductive Format where
  | audio | decentSampler
  deriving DecidableEq, Repr

/-- `getMatchingFormat` (ForeignInstrument.cpp:27-40) with `matchesFilePath` of the two formats (AudioFile.cpp:33-42,
DecentSampler.cpp:31-35). -/
def matchingFormat (path : Text) : Option Format :=
  if audioExtensions.any (fun e => equalsIgnoreCase (extension path) e) then some .audio
  else if equalsIgnoreCase (extension path) ".dspreset".toList then some .decentSampler
  else none

/-- `AudioFileInstrumentImporter::convertToSfz` (AudioFile.cpp:50-56). -/
def audioText (path : Text) : Text := "<region>sample=".toList ++ fileName path

/-- The `sample` opcode of a region (Region.cpp:61-75): the file it names, as a path from the directory of the instrument (`*`: a generator, no
file). -/
def sampleFile (defaultPath : Text) (current v : Text) : Text :=
  match trim v with
  | [] => current
  | '*' :: t => '*' :: t
  | t => defaultPath ++ t.map (fun c => if c = '\\' then '/' else c)

/-- Where samples are looked for: the directory of the virtual instrument file, the path with `.sfz` appended (sfizz_import.cpp:23;
`Synth::finalizeSfzLoad`, Synth.cpp:697-703). -/
def rootDirectory (path : Text) : Text := directory (path ++ ".sfz".toList)

/-! ### DecentSampler presets -/

abbrev Node := List (Text × Text)

/-- The elements that are looked at (DecentSampler.cpp:56-81): `bgImage` of `ui` (empty when missing), `groups` with its attributes, the
`group` elements in it, the `sample` elements in these. -/
structure Preset where
  image : Text
  groups : Node
  parts : List (Node × List Node)

/-- The score by which `std::sort` orders the attributes (DecentSampler.cpp:102-110). -/
def score (a : Text × Text) : Int := if (seen a.1).1 = "rootNote".toList then -1 else 0

/-- An order that `std::sort` may leave: it is not stable (DecentSampler.cpp:99-112). -/
def SortedFrom (attributes sorted : Node) : Prop := sorted.Perm attributes ∧ sorted.Pairwise (fun a b => score a ≤ score b)

/-- The conversion of real numbers: the text that `os << value` writes for what `readLeadingFloat` read, `none` when nothing was read
(DecentSampler.cpp:121-130). `plain`: the number itself; `frames`: divided by 44100; `percent`: times 100; `unit`: what follows the number. -/
structure Reals where
  plain : Text → Option Text
  frames : Text → Option Text
  percent : Text → Option Text
  unit : Text → Text

/-- The ways in which attributes are converted: `convertToInt`, `convertToReal`, `convertToRealEx`, a copy of the text, and the cases of their
own (DecentSampler.cpp:116-130, 134-143, 180-185, 192-206, 214-216). -/
inductive Way where
  | int (name : Text) | real (name : Text) | copy (name : Text) | gain | cc (name : Text) | crossfade | loop | sustain
  deriving DecidableEq, Repr

/-- The cases of the switch (DecentSampler.cpp:133-226); `loopCrossfadeMode` and `seqMode` do nothing. -/
def ways : List (Text × Way) := [
  ("volume".toList, .gain), ("ampVeltrack".toList, .real "amp_veltrack".toList), ("path".toList, .copy "sample".toList),
  ("rootNote".toList, .int "key".toList), ("loNote".toList, .int "lokey".toList), ("hiNote".toList, .int "hikey".toList),
  ("loVel".toList, .int "lovel".toList), ("hiVel".toList, .int "hivel".toList), ("start".toList, .int "offset".toList),
  ("end".toList, .int "end".toList), ("tuning".toList, .real "transpose".toList), ("pan".toList, .real "pan".toList),
  ("trigger".toList, .copy "trigger".toList), ("onLoCC&".toList, .cc "on_locc".toList), ("onHiCC&".toList, .cc "on_hicc".toList),
  ("loopStart".toList, .int "loop_start".toList), ("loopEnd".toList, .int "loop_end".toList), ("loopCrossfade".toList, .crossfade),
  ("loopEnabled".toList, .loop), ("attack".toList, .real "ampeg_attack".toList), ("decay".toList, .real "ampeg_decay".toList),
  ("sustain".toList, .sustain), ("release".toList, .real "ampeg_release".toList), ("seqPosition".toList, .int "seq_position".toList)]

/-- What is written for a value (trimmed by the constructor of `Opcode`), in one of the ways; `number` is the number in the name. -/
def convertWay (R : Reals) (number : Nat) (v : Text) : Way → Option (Text × Text)
  | .int name => (readLeadingInt v).map (fun n => (name, octaveText n))
  | .real name => (R.plain v).map (fun t => (name, t))
  | .copy name => some (name, v)
  | .gain => (R.plain v).map (fun t => (if R.unit v = "dB".toList then "volume".toList else "amplitude".toList, t))
  | .cc name => (readLeadingInt v).map (fun n => (name ++ decimal number, octaveText n))
  | .crossfade => (R.frames v).map (fun t => ("loop_crossfade".toList, t))
  | .loop => some ("loop_mode".toList, if v = "true".toList then "loop_continuous".toList else "no_loop".toList)
  | .sustain => (R.percent v).map (fun t => ("ampeg_sustain".toList, t))

/-- What one attribute writes (DecentSampler.cpp:133-226): the name and the value of an opcode. -/
def convertAttribute (R : Reals) (a : Text × Text) : Option (Text × Text) :=
  (ways.lookup (seen a.1).1).bind (convertWay R ((seen a.1).2.headD 0) (trim a.2))

/-- `emitRegionalOpcodes` (DecentSampler.cpp:88-228), on sorted attributes. -/
def emitText (R : Reals) (sorted : Node) : Text :=
  sorted.flatMap (fun a => match convertAttribute R a with
    | none => []
    | some (n, v) => n ++ '=' :: v ++ ['\n'])

/-- One group (DecentSampler.cpp:71-81). -/
def groupText (R : Reals) (g : Node × List Node) : Text :=
  "<group>\n".toList ++ emitText R g.1 ++ g.2.flatMap (fun s => "<region>\n".toList ++ emitText R s)

/-- `convertToSfz` (DecentSampler.cpp:43-86), on a preset whose attributes are sorted. -/
def presetText (R : Reals) (p : Preset) : Text :=
  (if p.image = [] then [] else "<control> image=".toList ++ p.image ++ ['\n']) ++ "<global>\n".toList ++ emitText R p.groups ++
    p.parts.flatMap (groupText R)

end Verif.Import
