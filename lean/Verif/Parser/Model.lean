/-!
Model of the SFZ parser, /repo/src/sfizz/parser/Parser.cpp, Parser.h, ParserPrivate.cpp, ParserPrivate.h and ParserPrivate.hpp.

A byte is a `Char` (the code of the byte). Positions are natural numbers; a put-back that would
take a position below zero, or look up a line that was not recorded, sets the mark `bad` (the code would wrap around or read
outside of a vector). Loops over the characters are bounded by the number of characters left, which is never exceeded.
File names are texts; `fs::path` arithmetic is the parameter `resolve`, the disk is the parameter `files`. Hash maps
are association lists, the newest entry first. The texts of errors and warnings are replaced by the kind `Msg`.
-/
namespace Verif.Parser

abbrev Text := List Char

/-- `SourceLocation` (Parser.h:114-119). -/
structure Loc where
  path : Text
  line : Nat
  col : Nat
deriving DecidableEq, Repr

/-- `Reader` (ParserPrivate.h:21-103) with the source of its bytes. `signed` marks a `StringViewReader` (ParserPrivate.h:123-134),
otherwise it is a `FileReader`. `accum` is kept with the next character first (in the code it is last). -/
structure Reader where
  path : Text
  signed : Bool
  accum : Text
  stream : Text
  line : Nat
  col : Nat
  cols : List Nat
  bad : Bool
deriving DecidableEq, Repr

/-- `Reader::location` (ParserPrivate.h:29). -/
def Reader.loc (r : Reader) : Loc := ⟨r.path, r.line, r.col⟩

/-- How many bytes are left; bounds the loops. -/
def Reader.size (r : Reader) : Nat := r.accum.length + r.stream.length

/-- The byte which, as a negative `char`, equals `kEof`. -/
def eofByte : Char := Char.ofNat 255

/-- `Reader::updateSourceLocationAdding` (ParserPrivate.cpp:103-112). -/
def addLoc (r : Reader) (c : Char) : Reader :=
  if c = '\n' then { r with cols := r.cols ++ [r.col], line := r.line + 1, col := 0 }
  else { r with col := r.col + 1 }

/-- `Reader::updateSourceLocationRemoving` (ParserPrivate.cpp:114-123). -/
def removeLoc (r : Reader) (c : Char) : Reader :=
  if c = '\n' then
    if r.line = 0 then { r with bad := true }
    else match r.cols[r.line - 1]? with
      | none => { r with bad := true }
      | some k => { r with line := r.line - 1, col := k, cols := r.cols.dropLast }
  else if r.col = 0 then { r with bad := true }
  else { r with col := r.col - 1 }

/-- `Reader::getChar` (ParserPrivate.cpp:18-33) with `getNextStreamByte` (137-140 and 147-153): the string reader
returns a signed `char`, so that the byte 255 is taken and looks like the end. -/
def getChar (r : Reader) : Option Char × Reader :=
  match r.accum with
  | c :: rest => (some c, addLoc { r with accum := rest } c)
  | [] =>
    match r.stream with
    | [] => (none, r)
    | c :: rest => if r.signed = true ∧ c = eofByte then (none, { r with stream := rest }) else (some c, addLoc { r with stream := rest } c)

/-- `Reader::putBackChars` (ParserPrivate.cpp:69-75). -/
def putBackChars (r : Reader) (s : Text) : Reader :=
  s.foldr (fun c r => removeLoc r c) { r with accum := s ++ r.accum }

/-- `Reader::putBackChar` (ParserPrivate.cpp:60-67). -/
def putBackChar (r : Reader) (c : Char) : Reader := putBackChars r [c]

/-- `Reader::peekChar` (ParserPrivate.cpp:35-47). -/
def peekChar (r : Reader) : Option Char × Reader :=
  match r.accum with
  | c :: _ => (some c, r)
  | [] =>
    match getChar r with
    | (none, r1) => (none, r1)
    | (some c, r1) => (some c, putBackChar r1 c)

/-- The loop of `Reader::extractWhile` (ParserPrivate.hpp:11-30). -/
def extractLoop (p : Char → Bool) : Nat → Reader → Text × Reader
  | 0, r => ([], r)
  | n + 1, r =>
    match getChar r with
    | (none, r1) => ([], r1)
    | (some c, r1) => if p c then (c :: (extractLoop p n r1).1, (extractLoop p n r1).2) else ([], putBackChar r1 c)

/-- `Reader::extractWhile` (ParserPrivate.hpp:11-30). -/
def extractWhile (p : Char → Bool) (r : Reader) : Text × Reader := extractLoop p (r.size + 1) r

/-- `Reader::extractExactChar` (ParserPrivate.cpp:49-58). -/
def extractExactChar (c : Char) (r : Reader) : Bool × Reader :=
  match peekChar r with
  | (none, r1) => (false, r1)
  | (some d, r1) => if d = c then (true, (getChar r1).2) else (false, r1)

/-- The loop of `Reader::skipChars` (ParserPrivate.cpp:77-87). -/
def skipLoop (p : Char → Bool) : Nat → Reader → Nat × Reader
  | 0, r => (0, r)
  | n + 1, r =>
    match peekChar r with
    | (none, r1) => (0, r1)
    | (some c, r1) => if p c then ((skipLoop p n (getChar r1).2).1 + 1, (skipLoop p n (getChar r1).2).2) else (0, r1)

/-- `Reader::skipChars` (ParserPrivate.cpp:77-87). -/
def skipChars (p : Char → Bool) (r : Reader) : Nat × Reader := skipLoop p (r.size + 1) r

/-- `Parser::isIdentifierChar` (Parser.cpp:560-565). -/
def isIdentChar (c : Char) : Bool :=
  c == '_' || ('a' ≤ c && c ≤ 'z') || ('A' ≤ c && c ≤ 'Z') || ('0' ≤ c && c ≤ '9')

/-- `Parser::isSpaceChar` (Parser.cpp:567-570). -/
def isSpaceChar (c : Char) : Bool := c == ' ' || c == '\t'

/-- The characters of `" \t\r\n"` (Parser.cpp:118). -/
def isBlank (c : Char) : Bool := c == ' ' || c == '\t' || c == '\r' || c == '\n'

/-- `Parser::isIdentifier` (Parser.cpp:572-583). -/
def isIdentifier (s : Text) : Bool := !s.isEmpty && s.all isIdentChar

/-- The loop of `Parser::extractToEol` (Parser.cpp:490-502), whose predicate looks at the next character. -/
def eolLoop : Nat → Reader → Text × Reader
  | 0, r => ([], r)
  | n + 1, r =>
    match getChar r with
    | (none, r1) => ([], r1)
    | (some c, r1) =>
      if c = '\r' ∨ c = '\n' then ([], putBackChar r1 c)
      else if c = '/' then
        if (peekChar r1).1 = some '/' ∨ (peekChar r1).1 = some '*' then ([], putBackChar (peekChar r1).2 c)
        else (c :: (eolLoop n (peekChar r1).2).1, (eolLoop n (peekChar r1).2).2)
      else (c :: (eolLoop n r1).1, (eolLoop n r1).2)

/-- `Parser::extractToEol` (Parser.cpp:490-502). -/
def extractToEol (r : Reader) : Text × Reader := eolLoop (r.size + 1) r

/-- The kinds of errors and warnings. -/
inductive Msg
  | unterminatedComment | includeDepth | cannotOpen | expectedDefineId | expectedIncludeFile | unknownDirective
  | expectedHash | expectedLess | expectedGreater | badHeader | expectedOpcode | expectedEqual | badOpcode
  | noHeader | expectedVariable | undefinedVariable (name : Text)
deriving DecidableEq, Repr

/-- The calls of the listener (ParserListener.h:16-27). `onParseBegin` and `onParseEnd` are left out. -/
inductive Event
  | header (start stop : Loc) (name : Text)
  | opcode (nameStart nameStop valueStart valueStop : Loc) (name value : Text)
  | error (start stop : Loc) (msg : Msg)
  | warning (start stop : Loc) (msg : Msg)
  | block (header : Text) (opcodes : List (Text × Text))
deriving DecidableEq, Repr

/-- `Parser::CommentType` and `getCommentType` (Parser.cpp:412-432). -/
inductive CommentType | none | line | block
deriving DecidableEq, Repr

def getCommentType (r : Reader) : CommentType × Reader :=
  match peekChar r with
  | (some '/', r1) =>
    match peekChar (getChar r1).2 with
    | (some '/', r2) => (.line, putBackChar r2 '/')
    | (some '*', r2) => (.block, putBackChar r2 '/')
    | (_, r2) => (.none, putBackChar r2 '/')
  | (_, r1) => (.none, r1)

/-- The loop over a line comment (Parser.cpp:452-456). -/
def lineCommentLoop : Nat → Reader → Reader
  | 0, r => r
  | n + 1, r =>
    match getChar r with
    | (none, r1) => r1
    | (some c, r1) => if c = '\r' ∨ c = '\n' then r1 else lineCommentLoop n r1

/-- The loop over a block comment (Parser.cpp:463-468); `true` when terminated. -/
def blockCommentLoop : Nat → Char → Reader → Bool × Reader
  | 0, _, r => (false, r)
  | n + 1, c1, r =>
    match getChar r with
    | (none, r1) => (false, r1)
    | (some c2, r1) => if c1 = '*' ∧ c2 = '/' then (true, r1) else blockCommentLoop n c2 r1

/-- `Parser::skipComment` (Parser.cpp:434-482): whether there was a comment (the code returns how many characters it had), the
events, the reader after. -/
def skipComment (r : Reader) : Bool × List Event × Reader :=
  match getCommentType r with
  | (.none, r1) => (false, [], r1)
  | (.line, r1) => (true, [], lineCommentLoop (r1.size + 1) (getChar (getChar r1).2).2)
  | (.block, r1) =>
    match getChar (getChar (getChar r1).2).2 with
    | (none, r2) => (true, [.error r1.loc r2.loc .unterminatedComment], r2)
    | (some c, r2) =>
      match blockCommentLoop (r2.size + 1) c r2 with
      | (true, r3) => (true, [], r3)
      | (false, r3) => (true, [.error r1.loc r3.loc .unterminatedComment], r3)

/-- The loop `while (reader.skipChars(" \t\r\n") || skipComment())` (Parser.cpp:118). -/
def skipBlanksLoop : Nat → Reader → List Event × Reader
  | 0, r => ([], r)
  | n + 1, r =>
    match skipChars isBlank r with
    | (0, r1) =>
      match skipComment r1 with
      | (true, ev, r2) => (ev ++ (skipBlanksLoop n r2).1, (skipBlanksLoop n r2).2)
      | (false, _, r2) => ([], r2)
    | (_ + 1, r1) => skipBlanksLoop n r1

/-- See `skipBlanksLoop`. -/
def skipBlanks (r : Reader) : List Event × Reader := skipBlanksLoop (r.size + 1) r

/-- `Parser::recover` (Parser.cpp:393-399). -/
def recover (r : Reader) : Reader := (extractWhile (fun c => c != '\n') r).2

/-- Definitions, the newest first. -/
abbrev Defs := List (Text × Text)

/-- The search for a variable name after a `$` (Parser.cpp:527-533): the name read, the value if it is known, and the text after. -/
def scanName (defs : Defs) : Text → Text → Text × Option Text × Text
  | name, [] => (name, none, [])
  | name, c :: cs =>
    if isIdentChar c then
      match defs.lookup (name ++ [c]) with
      | some v => (name ++ [c], some v, cs)
      | none => scanName defs (name ++ [c]) cs
    else (name, none, c :: cs)

/-- One pass over a text (Parser.cpp:515-547): the text obtained, the number of `$` met, the warnings. The bound is the length. -/
def expandPass (defs : Defs) : Nat → Text → Text × Nat × List Msg
  | 0, _ => ([], 0, [])
  | _ + 1, [] => ([], 0, [])
  | n + 1, c :: cs =>
    if c = '$' then
      match scanName defs [] cs with
      | ([], _, rest) =>
        ((expandPass defs n rest).1, (expandPass defs n rest).2.1 + 1, .expectedVariable :: (expandPass defs n rest).2.2)
      | (name, none, rest) =>
        ((expandPass defs n rest).1, (expandPass defs n rest).2.1 + 1, .undefinedVariable name :: (expandPass defs n rest).2.2)
      | (_, some v, rest) =>
        (v ++ (expandPass defs n rest).1, (expandPass defs n rest).2.1 + 1, (expandPass defs n rest).2.2)
    else (c :: (expandPass defs n cs).1, (expandPass defs n cs).2.1, (expandPass defs n cs).2.2)

/-- `Parser::expandDollarVars` (Parser.cpp:504-558): passes are repeated until one meets no `$`. `none`: not finished after the
given number of passes. -/
def expandVars (defs : Defs) : Nat → Text → Option (Text × List Msg)
  | 0, _ => none
  | k + 1, src =>
    match expandPass defs (src.length + 1) src with
    | (dst, 0, w) => some (dst, w)
    | (dst, _ + 1, w) =>
      match expandVars defs k dst with
      | none => none
      | some (d, w') => some (d, w ++ w')

/-- The search for the end of a value within a line (Parser.cpp:314-365): the value, and what is put back. The bound is the
length. -/
def splitValue : Nat → Text → Text × Text
  | 0, t => ([], t)
  | _ + 1, [] => ([], [])
  | n + 1, c :: cs =>
    if c = '<' then ([], c :: cs)
    else if isSpaceChar c then
      match cs.dropWhile isSpaceChar with
      | [] => ([], c :: cs)
      | d :: us =>
        if d = '<' then ([], c :: cs)
        else if d = '#' then
          if us.takeWhile isIdentChar = "define".toList ∨ us.takeWhile isIdentChar = "include".toList then ([], c :: cs)
          else (c :: cs.takeWhile isSpaceChar ++ (splitValue n (d :: us)).1, (splitValue n (d :: us)).2)
        else if isIdentChar d then
          match us.dropWhile (fun c => isIdentChar c || c == '$') with
          | '=' :: _ => ([], c :: cs)
          | w => (c :: cs.takeWhile isSpaceChar ++ d :: us.takeWhile (fun c => isIdentChar c || c == '$') ++ (splitValue n w).1, (splitValue n w).2)
        else (c :: cs.takeWhile isSpaceChar ++ (splitValue n (d :: us)).1, (splitValue n (d :: us)).2)
    else (c :: (splitValue n cs).1, (splitValue n cs).2)

/-- What does not change during a parse: the settings (Parser.h:41-42), the disk, and how variables are expanded
(`none`: the expansion does not finish). -/
structure Env where
  files : Text → Option Text
  resolve : Text → Text
  maxDepth : Nat
  guard : Bool
  expand : Defs → Text → Option (Text × List Msg)

/-- The state of `Parser` (Parser.h:83-106); the innermost file is first. The counts of errors and warnings are those of the events. -/
structure PState where
  defs : Defs
  included : List Reader
  paths : List Text
  header : Option Text
  opcodes : List (Text × Text)
  events : List Event
deriving DecidableEq, Repr

/-- `emitError` (Parser.cpp:379-384), `emitWarning` (386-391) and the calls of the listener. -/
def PState.emit (s : PState) (e : List Event) : PState := { s with events := s.events ++ e }

/-- A new reader (ParserPrivate.cpp:11-16, 127-130, 142-145). -/
def newReader (path : Text) (signed : Bool) (text : Text) : Reader := ⟨path, signed, [], text, 0, 0, [], false⟩

/-- `includeNewFile` (Parser.cpp:68-106) for an `#include`. -/
def includeFile (E : Env) (s : PState) (path : Text) (start stop : Loc) : PState :=
  if E.resolve path ∈ s.paths ∧ E.guard = true then s
  else if s.included.length = E.maxDepth then s.emit [.error start stop .includeDepth]
  else match E.files (E.resolve path) with
    | none => s.emit [.error start stop .cannotOpen]
    | some t => { s with paths := E.resolve path :: s.paths, included := newReader (E.resolve path) false t :: s.included }

/-- `includeNewFile` for the main text (Parser.cpp:53-66, 68-106), after `clear` (23-31). -/
def start (E : Env) (external : Defs) (path : Text) (signed : Bool) (text : Text) : PState :=
  if E.maxDepth = 0 then ⟨external, [], [], none, [], [.error ⟨path, 0, 0⟩ ⟨path, 0, 0⟩ .includeDepth]⟩
  else ⟨external, [newReader path signed text], [path], none, [], []⟩

/-- `flushCurrentHeader` (Parser.cpp:401-410). -/
def flush (s : PState) : PState :=
  match s.header with
  | some h => { s with header := none, opcodes := [], events := s.events ++ [.block h s.opcodes] }
  | none => { s with opcodes := [] }

/-- `#define` after the word (Parser.cpp:153-180). -/
def processDefine (s : PState) (start : Loc) (r : Reader) (rest : List Reader) : PState :=
  match extractExactChar '$' (skipChars isSpaceChar r).2 with
  | (false, r1) => { s with included := recover r1 :: rest, events := s.events ++ [.error start r1.loc .expectedDefineId] }
  | (true, r1) =>
    match extractWhile isIdentChar r1 with
    | ([], r2) => { s with included := recover r2 :: rest, events := s.events ++ [.error start r2.loc .expectedDefineId] }
    | (id, r2) =>
      match extractToEol (skipChars isSpaceChar r2).2 with
      | (value, r3) =>
        { s with
          defs := (id, value.takeWhile (fun c => !isSpaceChar c)) :: s.defs
          included := putBackChars r3 (value.dropWhile (fun c => !isSpaceChar c)) :: rest }

/-- `std::replace(path.begin(), path.end(), '\\', '/')` (Parser.cpp:208). -/
def slashes (p : Text) : Text := p.map (fun c => if c = '\\' then '/' else c)

/-- `#include` after the word (Parser.cpp:183-209). -/
def processInclude (E : Env) (s : PState) (start : Loc) (r : Reader) (rest : List Reader) : Option PState :=
  match extractExactChar '"' (skipChars isSpaceChar r).2 with
  | (false, r1) => some { s with included := recover r1 :: rest, events := s.events ++ [.error start r1.loc .expectedIncludeFile] }
  | (true, r1) =>
    match extractWhile (fun c => c != '"' && c != '\r' && c != '\n') r1 with
    | (path, r2) =>
      match extractExactChar '"' r2 with
      | (false, r3) => some { s with included := recover r3 :: rest, events := s.events ++ [.error start r3.loc .expectedIncludeFile] }
      | (true, r3) =>
        match E.expand s.defs path with
        | none => none
        | some (p, w) =>
          some (includeFile E { s with included := r3 :: rest, events := s.events ++ w.map (.warning r1.loc r2.loc) } (slashes p) start r3.loc)

/-- `processDirective` (Parser.cpp:137-216). -/
def processDirective (E : Env) (s : PState) (r : Reader) (rest : List Reader) : Option PState :=
  match getChar r with
  | (some '#', r1) =>
    match extractWhile isIdentChar r1 with
    | (directive, r2) =>
      if directive = "define".toList then some (processDefine s r.loc r2 rest)
      else if directive = "include".toList then processInclude E s r.loc r2 rest
      else some { s with included := recover r2 :: rest, events := s.events ++ [.error r.loc r2.loc .unknownDirective] }
  | (_, r1) => some { s with included := recover r1 :: rest, events := s.events ++ [.error r.loc r1.loc .expectedHash] }

/-- `processHeader` (Parser.cpp:218-255). -/
def processHeader (s : PState) (r : Reader) (rest : List Reader) : PState :=
  match getChar r with
  | (some '<', r1) =>
    match extractWhile (fun c => c != '\r' && c != '\n' && c != '>') r1 with
    | (name, r2) =>
      match peekChar r2 with
      | (some '>', r3) =>
        if isIdentifier name = true then
          { flush { s with included := (getChar r3).2 :: rest } with
            header := some name
            events := (flush s).events ++ [.header r.loc (getChar r3).2.loc name] }
        else
          { s with included := recover (getChar r3).2 :: rest, events := s.events ++ [.error r.loc (getChar r3).2.loc .badHeader] }
      | (_, r3) => { s with included := recover r3 :: rest, events := s.events ++ [.error r.loc r3.loc .expectedGreater] }
  | (_, r1) => { s with included := recover r1 :: rest, events := s.events ++ [.error r.loc r1.loc .expectedLess] }

/-- The value of an opcode other than `base64data` (Parser.cpp:311-376). -/
def processValue (E : Env) (s : PState) (nameStart nameStop valueStart : Loc) (name : Text) (r : Reader) (rest : List Reader) : Option PState :=
  match extractToEol r with
  | (line, r1) =>
    let value := (splitValue (line.length + 1) line).1
    let r2 := putBackChars r1 (splitValue (line.length + 1) line).2
    match E.expand s.defs value with
    | none => none
    | some (v, w) =>
      some { s with
        included := r2 :: rest
        opcodes := s.opcodes ++ [(name, v)]
        events := s.events ++ (if s.header = none then [.warning nameStart r2.loc .noHeader] else []) ++
          w.map (.warning valueStart r2.loc) ++ [.opcode nameStart nameStop valueStart r2.loc name v] }

/-- `base64data` (Parser.cpp:294-309). -/
def processData (s : PState) (nameStart nameStop valueStart : Loc) (name : Text) (r : Reader) (rest : List Reader) : PState :=
  match extractWhile (fun c => !(c == '<' || c == '#')) r with
  | (value, r1) =>
    { s with
      included := r1 :: rest
      opcodes := s.opcodes ++ [(name, value)]
      events := s.events ++ [.opcode nameStart nameStop valueStart r1.loc name value] }

/-- `processOpcode` (Parser.cpp:257-377). -/
def processOpcode (E : Env) (s : PState) (r : Reader) (rest : List Reader) : Option PState :=
  match extractWhile (fun c => isIdentChar c || c == '$') r with
  | ([], r1) => some { s with included := recover r1 :: rest, events := s.events ++ [.error r.loc r1.loc .expectedOpcode] }
  | (raw, r1) =>
    match peekChar r1 with
    | (some '=', r2) =>
      match E.expand s.defs raw with
      | none => none
      | some (name, w) =>
        if isIdentifier name = true then
          if name = "base64data".toList then
            some (processData { s with events := s.events ++ w.map (.warning r.loc r1.loc) } r.loc r1.loc (getChar r2).2.loc name (getChar r2).2 rest)
          else
            processValue E { s with events := s.events ++ w.map (.warning r.loc r1.loc) } r.loc r1.loc (getChar r2).2.loc name (getChar r2).2 rest
        else
          some { s with
            included := recover r2 :: rest
            events := s.events ++ w.map (.warning r.loc r1.loc) ++ [.error r.loc r1.loc .badOpcode] }
    | (_, r2) => some { s with included := recover r2 :: rest, events := s.events ++ [.error r.loc r1.loc .expectedEqual] }

/-- One turn of `processTopLevel` (Parser.cpp:113-135) with the file `r` innermost. -/
def turn (E : Env) (s : PState) (r : Reader) (rest : List Reader) : Option PState :=
  match skipBlanks r with
  | (ev, r1) =>
    match peekChar r1 with
    | (none, _) => some { s with included := rest, events := s.events ++ ev }
    | (some c, r2) =>
      if c = '#' then processDirective E { s with events := s.events ++ ev, included := r2 :: rest } r2 rest
      else if c = '<' then some (processHeader { s with events := s.events ++ ev, included := r2 :: rest } r2 rest)
      else processOpcode E { s with events := s.events ++ ev, included := r2 :: rest } r2 rest

/-- One turn, or the end of the parse. `none`: an expansion that does not finish. -/
def step (E : Env) (s : PState) : Option PState :=
  match s.included with
  | [] => some s
  | r :: rest => turn E s r rest

/-- Some turns. -/
def run (E : Env) : Nat → PState → Option PState
  | 0, s => some s
  | n + 1, s =>
    match step E s with
    | none => none
    | some s' => run E n s'

/-- `parseVirtualFile` (Parser.cpp:53-66): the parse finishes in the state `s`. -/
def Parses (E : Env) (external : Defs) (path : Text) (signed : Bool) (text : Text) (s : PState) : Prop :=
  ∃ n s', run E n (start E external path signed text) = some s' ∧ s'.included = [] ∧ s = flush s'

/-- The environment whose expansion makes at most `k` passes over a text. -/
def envWith (files : Text → Option Text) (resolve : Text → Text) (maxDepth : Nat) (guard : Bool) (k : Nat) : Env :=
  ⟨files, resolve, maxDepth, guard, fun d t => expandVars d k t⟩

end Verif.Parser
