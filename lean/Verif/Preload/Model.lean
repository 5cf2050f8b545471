/-!
# How much of each sample is kept in memory

The beginning of each sample of an instrument is kept in memory, so that its notes sound at once while the rest is read from the disk:
`FilePool::preloadFile` (FilePool.cpp:310-356), `resetPreloadCallCounts` (358-365), `removeUnusedPreloadedData` (367-384),
`setPreloadSize` (460-478), `setRamLoading` (634-655), as used by `Synth::Impl::clear` (Synth.cpp:261-298),
`prepareSfzLoad` (608-634), `loadSfzFile` (636-663), `finalizeSfzLoad` (892-901) and `Synth::setPreloadSize` (2083-2093).

Only the numbers of frames are modelled; what is read is in AudioReader/Model.lean.  Simplified: files can be read and do not change;
the samples that are loaded in full from the start (`loadFile`, `loadFromRam`) are left out; the offset of each sample is given, as
computed in Region/Model.lean.
-/

namespace Verif.Preload

/-- `FileData` (FilePool.h:69-121), as far as it concerns what is preloaded. -/
structure Entry where
  /-- frames of `preloadedData` -/
  loaded : Nat
  /-- `information.maxOffset` -/
  maxOffset : Nat
  /-- `fullyLoaded`: nothing is read from the disk when a note starts (FilePool.cpp:445) -/
  full : Bool
  /-- `preloadCallCount` -/
  count : Nat
deriving DecidableEq, Repr

/-- `FilePool`; files are numbers. -/
structure Pool where
  files : Nat → Option Entry := fun _ => none
  /-- `preloadSize` (Config.h:29) -/
  size : Nat := 8192
  /-- `loadInRam` (Config.h:30) -/
  ram : Bool := false

/-- Replace the entry of a file. -/
def Pool.put (p : Pool) (f : Nat) (e : Entry) : Pool := { p with files := fun g => if g = f then some e else p.files g }

/-- Change all entries. -/
def Pool.change (p : Pool) (c : Nat → Entry → Entry) : Pool := { p with files := fun f => (p.files f).map (c f) }

/-- FilePool.cpp:326-332: in `uint32_t`. -/
def framesToLoad (disk : Nat → Nat) (p : Pool) (f offset : Nat) : Nat :=
  if p.ram then disk f else min (disk f) ((offset + p.size) % 2 ^ 32)

/-- The table of the files grows: all entries are moved, and the move constructor (FilePool.h:88-98) does not take `fullyLoaded` along. -/
def moveAll (p : Pool) : Pool := p.change fun _ e => { e with full := false }

/-- `preloadFile` (FilePool.cpp:310-356); `grows` tells whether the table grows when a file is added. -/
def preloadFile (disk : Nat → Nat) (p : Pool) (f offset : Nat) (grows : Bool) : Pool :=
  match p.files f with
  | some e =>
    if framesToLoad disk p f offset > e.loaded then
      p.put f { loaded := framesToLoad disk p f offset, maxOffset := offset, full := disk f = framesToLoad disk p f offset, count := e.count + 1 }
    else p.put f { e with count := e.count + 1 }
  | none =>
    (if grows then moveAll p else p).put f { loaded := framesToLoad disk p f offset, maxOffset := offset, full := framesToLoad disk p f offset = disk f, count := 1 }

/-- The loop of `setPreloadSize` on one file (FilePool.cpp:469-476): in `int64_t`. -/
def resize (disk : Nat → Nat) (size : Nat) (f : Nat) (e : Entry) : Entry :=
  { e with loaded := min (disk f) (e.maxOffset + size), full := disk f = min (disk f) (e.maxOffset + size) }

/-- `FilePool::setPreloadSize` (FilePool.cpp:460-478). -/
def setSize (disk : Nat → Nat) (p : Pool) (size : Nat) : Pool :=
  if p.ram then { p with size := size } else { p.change (resize disk size) with size := size }

/-- `information.end`: `frames - 1` in `uint32_t` (FilePool.cpp:253). -/
def lastFrame (frames : Nat) : Nat := if frames = 0 then 4294967295 else frames - 1

/-- The loop of `setRamLoading` on one file (FilePool.cpp:642-651). -/
def toRam (disk : Nat → Nat) (f : Nat) (e : Entry) : Entry := { e with loaded := lastFrame (disk f), full := true }

/-- `setRamLoading` (FilePool.cpp:634-655). -/
def setRam (disk : Nat → Nat) (p : Pool) (ram : Bool) : Pool :=
  if ram = p.ram then p
  else if ram then { p.change (toRam disk) with ram := true }
  else setSize disk { p with ram := false } p.size

/-- `FilePool::clear` (FilePool.cpp:542-550). -/
def clear (p : Pool) : Pool := { p with files := fun _ => none }

/-- `resetPreloadCallCounts` (FilePool.cpp:358-365). -/
def resetCounts (p : Pool) : Pool := p.change fun _ e => { e with count := 0 }

/-- `removeUnusedPreloadedData` (FilePool.cpp:367-384). -/
def removeUnused (p : Pool) : Pool := { p with files := fun f => (p.files f).filter fun e => e.count ≠ 0 }

/-- A sample of an instrument, with the greatest offset its notes start at. -/
structure Sample where
  file : Nat
  offset : Nat
  /-- the table of files grows with it, if it is new -/
  grows : Bool := false
deriving DecidableEq, Repr

/-- The synthesizer. -/
structure Synth where
  pool : Pool := {}
  /-- `lastPath_` -/
  path : Option Nat := none
  /-- the samples of the instrument -/
  current : List Sample := []

/-- `prepareSfzLoad` (Synth.cpp:608-634), with `clear` (298). -/
def prepare (disk : Nat → Nat) (s : Synth) (path : Nat) : Pool :=
  if s.path = some path then setRam disk s.pool false else clear (setRam disk s.pool false)

/-- The values of `hint_ram_based` in the file, one after the other (Synth.cpp:443-447). -/
def hints (disk : Nat → Nat) (p : Pool) (values : List Bool) : Pool := values.foldl (setRam disk) p

/-- Synth.cpp:892-901; the samples are different files (`filesToLoad`). -/
def finalize (disk : Nat → Nat) (p : Pool) (reloading : Bool) (wanted : List Sample) : Pool :=
  if reloading then removeUnused (wanted.foldl (fun p x => preloadFile disk p x.file x.offset x.grows) (resetCounts p))
  else wanted.foldl (fun p x => preloadFile disk p x.file x.offset x.grows) p

inductive Op where
  /-- an instrument is loaded: its path, its hints, its samples with their offsets -/
  | load (path : Nat) (values : List Bool) (wanted : List Sample)
  /-- an instrument fails to load -/
  | fail (path : Nat) (values : List Bool)
  /-- `Synth::setPreloadSize` -/
  | size (n : Nat)

/-- One call of the API. -/
def step (disk : Nat → Nat) (s : Synth) : Op → Synth
  | .load path values wanted =>
    { pool := finalize disk (hints disk (prepare disk s path) values) (s.path = some path) wanted, path := some path, current := wanted }
  | .fail path values => { pool := clear (hints disk (prepare disk s path) values), path := some path, current := [] }
  | .size n => if n = s.pool.size then s else { s with pool := setSize disk s.pool n }

/-- Any calls. -/
def run (disk : Nat → Nat) (s : Synth) (ops : List Op) : Synth := ops.foldl (step disk) s

end Verif.Preload
