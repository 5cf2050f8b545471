import Mathlib.Data.Rat.Defs
import Mathlib.Algebra.Order.Ring.Rat
import Mathlib.Data.List.Basic

/-!
# What each voice owns, and at which sample rate it runs

Models how voices get their filters, equalizers, LFOs and envelopes, and how the sample rate
reaches every part of the engine: `Synth::setSampleRate`, `Synth::setNumVoices`, loading, the
messages `/region&/add_filter` and `/region&/add_eq`, note starts and blocks, as far as counts
and sample rates are concerned.  Undefined behaviour (an index outside a vector, a null
description) is `none`.

Simplifications.  Sample rates are rational.  Every envelope a region describes is taken to be
connected (so it is started with the voice and computed in every block).  A region is reduced to
how many of each thing it asks for.
-/

namespace Verif.PerVoice

/-- `config::defaultSampleRate` (`Config.h:28`). -/
def defaultRate : ℚ := 48000

/-- What a region asks a voice for (`Region.h`: `filters`, `equalizers`, `lfos`, `flexEGs`,
`pitchEG`, `filterEG`, `amplitudeLFO`, `pitchLFO`, `filterLFO`). -/
structure Need where
  filters : ℕ
  eqs : ℕ
  lfos : ℕ
  egs : ℕ
  pitchEG : Bool
  filterEG : Bool
  ampLFO : Bool
  pitchLFO : Bool
  filLFO : Bool
  deriving DecidableEq

/-- A region that asks for nothing. -/
def Need.none : Need := ⟨0, 0, 0, 0, false, false, false, false, false⟩

/-- `settingsPerVoice_` (`SynthPrivate.h:351-362`) has the same fields. -/
abbrev Settings := Need

/-- One envelope of a voice: its rate, and whether it was given a description
(`FlexEnvelope::Impl::desc_`, `FlexEnvelope.cpp:36`). -/
structure Gen where
  rate : ℚ
  ready : Bool
  deriving DecidableEq

/-- A voice (`Voice.cpp:230-330`).  `region` is the index of the region it plays. -/
structure Voice where
  rate : ℚ
  gainSmoother : ℚ
  xfadeSmoother : ℚ
  oscillators : ℚ
  power : ℚ
  filters : List ℚ
  eqs : List ℚ
  lfos : List ℚ
  egs : List Gen
  pitchEG : Bool
  filterEG : Bool
  ampLFO : Option ℚ
  pitchLFO : Option ℚ
  filLFO : Option ℚ
  region : Option ℕ
  deriving DecidableEq

/-- `Voice::Impl::Impl` (`Voice.cpp:373-391`): two filters, three equalizers, everything at the
default rate. -/
def Voice.new : Voice where
  rate := defaultRate
  gainSmoother := defaultRate
  xfadeSmoother := defaultRate
  oscillators := defaultRate
  power := defaultRate
  filters := List.replicate 2 defaultRate
  eqs := List.replicate 3 defaultRate
  lfos := []
  egs := []
  pitchEG := false
  filterEG := false
  ampLFO := Option.none
  pitchLFO := Option.none
  filLFO := Option.none
  region := Option.none

/-- `Voice::setSampleRate` (`Voice.cpp:738-767`). -/
def Voice.setSampleRate (r : ℚ) (v : Voice) : Voice :=
  { v with
    rate := r
    gainSmoother := r
    xfadeSmoother := r
    oscillators := r
    egs := v.egs.map (fun g => { g with rate := r })
    lfos := v.lfos.map (fun _ => r)
    ampLFO := v.ampLFO.map (fun _ => r)
    pitchLFO := v.pitchLFO.map (fun _ => r)
    filLFO := v.filLFO.map (fun _ => r)
    filters := v.filters.map (fun _ => r)
    eqs := v.eqs.map (fun _ => r)
    power := r }

/-- `Voice::setMaxFiltersPerVoice` (`Voice.cpp:1802-1811`) and `setMaxEQsPerVoice`
(`:1813-1822`): same count, nothing; otherwise new ones, made by `FilterHolder::FilterHolder`
(`FilterPool.cpp:11-16`) and `EQHolder::EQHolder` (`EQPool.cpp:10-15`) at the default rate. -/
def setMaxFilters (n : ℕ) (old : List ℚ) : List ℚ :=
  if n = old.length then old else List.replicate n defaultRate

/-- The body of `Synth::Impl::applySettingsPerVoice` for one voice (`Synth.cpp:1988-2001`), with
`setMaxLFOsPerVoice`, `setMaxFlexEGsPerVoice` and the five switches (`Voice.cpp:1824-1907`). -/
def Voice.apply (s : Settings) (v : Voice) : Voice :=
  { v with
    filters := setMaxFilters s.filters v.filters
    eqs := setMaxFilters s.eqs v.eqs
    lfos := List.replicate s.lfos v.rate
    egs := List.replicate s.egs ⟨v.rate, false⟩
    pitchEG := s.pitchEG
    filterEG := s.filterEG
    ampLFO := if s.ampLFO then some v.rate else Option.none
    pitchLFO := if s.pitchLFO then some v.rate else Option.none
    filLFO := if s.filLFO then some v.rate else Option.none }

/-- An effect bus: the rates of its effects (`Effects.cpp:139-143`). -/
abbrev Bus := List ℚ

/-- The engine (`SynthPrivate.h`, `Resources.cpp:21-33`). -/
structure Engine where
  rate : ℚ
  voices : List Voice
  numVoices : ℕ
  settings : Settings
  regions : List Need
  /-- `MidiState`, `ModMatrix`, `BeatClock`, `Metronome` of `Resources`. -/
  midi : ℚ
  matrix : ℚ
  clock : ℚ
  metronome : ℚ
  /-- `effectBuses_`: outputs, buses, effects. -/
  buses : List (List (Option Bus))
  numOutputs : ℕ
  deriving DecidableEq

/-- An `<effect>` header: its output, the buses whose gains it sets, and the bus that receives
the effect (`Synth.cpp:480-553`). -/
structure Fx where
  output : ℕ
  gains : List ℕ
  bus : Option ℕ
  deriving DecidableEq

/-- `addEffectBusesIfNecessary` (`Synth.cpp:241-254`): new outputs have one empty main bus. -/
def addOutputs (output : ℕ) (b : List (List (Option Bus))) : List (List (Option Bus)) :=
  b ++ List.replicate (output + 1 - b.length) [some []]

/-- `getOrCreateBus` (`Synth.cpp:493-505`) followed by `f` on the bus. -/
def withBus (f : Bus → Bus) (i : ℕ) (l : List (Option Bus)) : List (Option Bus) :=
  let l := l ++ List.replicate (i + 1 - l.length) Option.none
  l.modify i (fun b => some (f (b.getD [])))

/-- `handleEffectOpcodes` (`Synth.cpp:475-553`). -/
def handleFx (rate : ℚ) (fx : Fx) (b : List (List (Option Bus))) : List (List (Option Bus)) :=
  let b := addOutputs fx.output b
  let b := fx.gains.foldl (fun b i => b.modify fx.output (withBus id i)) b
  match fx.bus with
  | Option.none => b
  | some i => b.modify fx.output (withBus (fun l => l ++ [rate]) i)

/-- `Synth::Impl::clear` (`Synth.cpp:262-316`): voices are reset (`VoiceManager::reset`,
`Voice::reset`), regions and buses go. -/
def Engine.clear (e : Engine) : Engine :=
  { e with
    voices := e.voices.map (fun v => { v with region := Option.none })
    regions := []
    buses := addOutputs 0 []
    numOutputs := 1 }

/-- `VoiceManager::requireNumVoices` (`VoiceManager.cpp:178-186`): how many voices are made. -/
def effectiveVoices (n : ℕ) : ℕ := min 256 (n + max (n * 3 / 2) 4)

/-- `Synth::Impl::resetVoices` (`Synth.cpp:1966-1981`). -/
def Engine.resetVoices (n : ℕ) (e : Engine) : Engine :=
  { e with
    numVoices := n
    voices := (List.replicate (effectiveVoices n) Voice.new).map
      (fun v => (v.setSampleRate e.rate).apply e.settings) }

/-- The engine a constructor leaves (`Synth.cpp:63-83`); 64 is `config::numVoices`. -/
def Engine.start : Engine :=
  Engine.resetVoices 64
    { rate := defaultRate, voices := [], numVoices := 0, settings := Need.none, regions := []
      midi := defaultRate, matrix := defaultRate, clock := defaultRate, metronome := defaultRate
      buses := addOutputs 0 [], numOutputs := 1 }

/-- The counting part of the loop of `finalizeSfzLoad` (`Synth.cpp:720-728`, `:877-886`). -/
def countNeeds (rs : List Need) : Settings :=
  rs.foldl (fun s r =>
    ⟨max s.filters r.filters, max s.eqs r.eqs, max s.lfos r.lfos, max s.egs r.egs,
      s.pitchEG || r.pitchEG, s.filterEG || r.filterEG, s.ampLFO || r.ampLFO,
      s.pitchLFO || r.pitchLFO, s.filLFO || r.filLFO⟩) Need.none

/-- Operations of the engine's user. -/
inductive Op
  | setSampleRate (r : ℚ)
  | setNumVoices (n : ℕ)
  /-- A successful load: effects in order, the regions kept, and the highest output of a region. -/
  | load (fx : List Fx) (regions : List Need) (output : ℕ)
  /-- A load that finds no region (`Synth.cpp:651-659`). -/
  | loadFails (fx : List Fx)
  /-- `/region&/add_filter` (`SynthMessaging.cpp:486-494`). -/
  | addFilter (region : ℕ)
  /-- `/region&/add_eq` (`SynthMessaging.cpp:518-526`). -/
  | addEq (region : ℕ)
  /-- A voice starts a region. -/
  | start (voice region : ℕ)
  /-- A voice ends. -/
  | stop (voice : ℕ)
  /-- One block. -/
  | render

/-- `applySettingsPerVoice` (`Synth.cpp:1988-2001`). -/
def Engine.apply (e : Engine) : Engine := { e with voices := e.voices.map (Voice.apply e.settings) }

/-- What `Voice::startVoice` (`Voice.cpp:510-516`) and the starts of the generators
(`modulations/sources/LFO.cpp:22-60`, `FlexEnvelope.cpp:22-46`, `ADSREnvelope.cpp`) index. -/
def canStart (n : Need) (v : Voice) : Bool :=
  decide (n.filters ≤ v.filters.length) && decide (n.eqs ≤ v.eqs.length) &&
  decide (n.lfos ≤ v.lfos.length) && decide (n.egs ≤ v.egs.length) &&
  (!n.pitchEG || v.pitchEG) && (!n.filterEG || v.filterEG) &&
  (!n.ampLFO || v.ampLFO.isSome) && (!n.pitchLFO || v.pitchLFO.isSome) &&
  (!n.filLFO || v.filLFO.isSome)

/-- `FlexEnvelopeSource::init` on every envelope of the region
(`modulations/sources/FlexEnvelope.cpp:38-39`). -/
def ready (n : ℕ) (gs : List Gen) : List Gen :=
  gs.mapIdx (fun i g => if i < n then { g with ready := true } else g)

/-- What a block needs of a playing voice: `filterStageMono`/`Stereo` (`Voice.cpp:1032-1066`)
index the filters and equalizers of the region; the generators are computed, and
`FlexEnvelope::Impl::process` (`FlexEnvelope.cpp:172-174`) follows its description. -/
def canRender (n : Need) (v : Voice) : Bool :=
  canStart n v && (v.egs.take n.egs).all (·.ready)

/-- One operation; `none` is undefined behaviour. -/
def step (e : Engine) : Op → Option Engine
  | .setSampleRate r =>
    -- `Synth::setSampleRate`, `Synth.cpp:1075-1091`; `Resources::setSampleRate`,
    -- `Resources.cpp:44-51`
    some { e with
      rate := r
      voices := e.voices.map (Voice.setSampleRate r)
      midi := r, matrix := r, clock := r, metronome := r
      buses := e.buses.mapIdx (fun i bs =>
        if i < e.numOutputs then bs.map (Option.map (List.map (fun _ => r))) else bs) }
  | .setNumVoices n =>
    -- `Synth.cpp:1953-1964`
    some (if n = e.numVoices then e else e.resetVoices n)
  | .load fx rs output =>
    -- `prepareSfzLoad`, parsing, `finalizeSfzLoad` (`Synth.cpp:608-663`, `:702-960`)
    let e := e.clear
    let b := fx.foldl (fun b h => handleFx e.rate h b) e.buses
    let e := { e with
      regions := rs, settings := countNeeds rs, numOutputs := max (output + 1) e.numOutputs }
    some { e.apply with buses := addOutputs e.numOutputs b }
  | .loadFails fx =>
    let e := e.clear
    some { e with buses := fx.foldl (fun b h => handleFx e.rate h b) e.buses }
  | .addFilter i =>
    match e.regions[i]? with
    | Option.none => some e
    | some r =>
      some ({ e with
        regions := e.regions.set i { r with filters := r.filters + 1 }
        settings := { e.settings with filters := max e.settings.filters r.egs } }).apply
  | .addEq i =>
    match e.regions[i]? with
    | Option.none => some e
    | some r =>
      some ({ e with
        regions := e.regions.set i { r with eqs := r.eqs + 1 }
        settings := { e.settings with eqs := max e.settings.eqs r.egs } }).apply
  | .start k i =>
    match e.voices[k]?, e.regions[i]? with
    | some v, some r =>
      if canStart r v then
        some { e with voices := e.voices.set k { v with region := some i, egs := ready r.egs v.egs } }
      else Option.none
    | _, _ => some e
  | .stop k =>
    match e.voices[k]? with
    | some v => some { e with voices := e.voices.set k { v with region := Option.none } }
    | Option.none => some e
  | .render =>
    if e.voices.all (fun v => match v.region with
        | Option.none => true
        | some i => match e.regions[i]? with
          | Option.none => true
          | some r => canRender r v) then some e else Option.none

/-- A history. -/
def run : Engine → List Op → Option Engine
  | e, [] => some e
  | e, o :: os => (step e o).bind (fun e => run e os)

end Verif.PerVoice
