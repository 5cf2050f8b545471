import Mathlib.Data.List.Basic

/-!
Model of how a sample is looked up in the file system: `FilePool::checkSample` (FilePool.cpp:169-232, systems other than Windows) and
the file name that the opcode `sample` gives (Region.cpp:62-76).

The file system is a tree of names without symbolic links; the entries of a directory are listed in the order in which the system
iterates over them. Reading directories does not fail. Paths are lists of names, as `fs::path` iterates over them; file names that end
in a slash are left out. The root directory of the pool is absolute and canonical (Synth.cpp:642-646: the directory of the canonical
path of the instrument), and exists.
-/
namespace Verif.FindSample

abbrev Name := List Char

/-- A file (with something that tells it from others) or a directory. -/
inductive Node where
  | file (content : Nat)
  | dir (entries : List (Name × Node))

def dot : Name := ['.']
def dotdot : Name := ['.', '.']

/-- The entry of a name. -/
def child (es : List (Name × Node)) (n : Name) : Option Node := (es.find? (fun e => e.1 == n)).map (·.2)

/-- What is at a path without dots, from the top. -/
def nodeAt : Node → List Name → Option Node
  | t, [] => some t
  | .file _, _ :: _ => none
  | .dir es, n :: p => (child es n).bind (fun t => nodeAt t p)

/-- The entries of the directory at a path without dots. -/
def entriesAt (t : Node) (loc : List Name) : Option (List (Name × Node)) :=
  match nodeAt t loc with
  | some (.dir es) => some es
  | _ => none

/-- How the system goes from a place (a path without dots) along names and dots; `none` when something is missing. -/
def resolve (t : Node) : List Name → List Name → Option (List Name)
  | loc, [] => some loc
  | loc, p :: ps =>
    (entriesAt t loc).bind fun es =>
      if p = dot then resolve t loc ps
      else if p = dotdot then resolve t loc.dropLast ps
      else if (child es p).isSome then resolve t (loc ++ [p]) ps else none

/-- `fs::exists` on an absolute path. -/
def «exists» (t : Node) (path : List Name) : Bool := (resolve t [] path).isSome

/-- `absl::EqualsIgnoreCase`. -/
def same (a b : Name) : Bool := a.map Char.toLower == b.map Char.toLower

/-- `fs::path::lexically_normal` on an absolute path. -/
def normal : List Name → List Name → List Name
  | acc, [] => acc
  | acc, p :: ps => if p = dot then normal acc ps else if p = dotdot then normal acc.dropLast ps else normal (acc ++ [p]) ps

/-- `fs::weakly_canonical`: as far as the path exists, then by its text. -/
def weaklyCanonical (t : Node) : List Name → List Name → List Name
  | loc, [] => loc
  | loc, p :: ps =>
    match resolve t loc [p] with
    | some loc' => weaklyCanonical t loc' ps
    | none => normal loc (p :: ps)

/-- The length of the common part of two paths. -/
def common : List Name → List Name → Nat
  | a :: p, b :: q => if a = b then common p q + 1 else 0
  | _, _ => 0

/-- `fs::relative` for a canonical base: the way from there. -/
def relative (t : Node) (path base : List Name) : List Name :=
  let p := weaklyCanonical t [] path
  let k := common p base
  let r := List.replicate (base.length - k) dotdot ++ p.drop k
  if r = [] then [dot] else r

/-- The loop of `checkSample` (FilePool.cpp:186-224); `acc` is the path so far. -/
def search (t : Node) : List Name → List Name → Option (List Name)
  | acc, [] => some acc
  | acc, p :: ps =>
    if p = dot ∨ p = dotdot then search t (acc ++ [p]) ps
    else if «exists» t (acc ++ [p]) then search t (acc ++ [p]) ps
    else
      match (resolve t [] acc).bind (entriesAt t) with
      | none => none
      | some es =>
        match es.find? (fun e => same e.1 p) with
        | none => none
        | some e => search t (acc ++ [e.1]) ps

/-- A file name: a path from the root directory of the pool, or an absolute one. -/
structure FileName where
  absolute : Bool := false
  parts : List Name

/-- `rootDirectory / filename`. -/
def FileName.path (base : List Name) (f : FileName) : List Name := if f.absolute then f.parts else base ++ f.parts

/-- `checkSample` (FilePool.cpp:169-232): the file name as it is changed, when it answers true. -/
def checkSample (t : Node) (base : List Name) (f : FileName) : Option FileName :=
  if «exists» t (f.path base) then some f
  else (search t [] (f.path base)).map fun path => { parts := relative t path base }

/-- `absl::StrReplaceAll(trimmedSample, { { "\\", "/" } })`. -/
def slashes (s : List Char) : List Char := s.map (fun c => if c = '\\' then '/' else c)

/-- The file name of a `sample` opcode that is not a generator (Region.cpp:64-75), given without spaces around. -/
def sampleName (defaultPath text : List Char) : List Char := defaultPath ++ slashes text

/-- The names of a path (`fs::path` and its iterator), for texts without a slash at their end. -/
def pathParts (s : List Char) : FileName :=
  { absolute := s.head? = some '/'
    parts := (s.splitOn '/').filter (· ≠ []) }

end Verif.FindSample
