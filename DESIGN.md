# Formal model of sfizz: design

The source is the pinned commit of sfztools/sfizz in `/repo`. It was read as text and never built or run.
Paths below are relative to `/repo/src/sfizz`.

## Layout

* `lean/Verif/<Topic>/Model.lean` – executable model, function by function, each definition citing file and lines.
* `lean/Verif/<Topic>/Lemmas.lean` – helper lemmas (only where needed).
* `lean/Verif/<Topic>/Props.lean` – specification and property theorems with an `example` beside each one.
* `properties.jsonl` – the properties; `MANIFEST.json` – property → theorems; `seeded/LOG.jsonl` – seeded-bug trials.

## Conventions

* Undefined behaviour (out-of-range index, division by zero, dangling access) is a distinct outcome of the
  model (`none`/`.ub`), never a default value.
* Integers are unbounded (`Nat`/`Int`) except where wrap-around is what the property is about
  (OSC sizes, note durations, `uint8_t`/`uint16_t` stores), where the width is written out.
* Floating point: code that only compares and copies floats is modelled over an arbitrary linear order;
  code that computes is modelled in exact rational arithmetic and the theorem says so (rounding is not modelled),
  except for C123 to C125, which use the binary32 rounding of `Float32`.
* When the code breaks the property, the negation is proved on a concrete witness (`…_violated`) and the
  strongest true part is proved under the name `…_partial`.

## Plan per property

| id | model | proof |
|----|-------|-------|
| C01 | `Range.h` over a linear order | induction over operation lists; `shrinkIfSmaller` counterexample |
| C02 | `CCMap.h` as sorted list with `lower_bound` | refinement to `cc → Option v` over all histories |
| C03 | `SwapAndPop.h` loops on lists | permutation theorem, count |
| C04 | `Base64.h` decoder, standard encoder as the specification | round trip by induction on 3-byte groups |
| C05–C07 | `Messaging.cpp` writer/reader over byte lists, 32-bit sizes | round trip by induction on arguments; prefix law; bounds; witnesses for the double and blob-size defects |
| C08–C10 | `MidiState.cpp` event vectors | refinement to "last value per delay"; flush law; `getCCValueAt` (defect witness) |
| C11 | note counters | refinement to the set of held keys for balanced histories, witness for unbalanced |
| C12–C13 | `Layer.cpp` switches | history invariant, sequence counter arithmetic |
| C14 | key-switch lists of `Synth.cpp` | history invariant |
| C15 | `Voice.cpp` pedal logic | history invariant; witness for the swapped guards |
| C16 | `Layer.cpp` delayed releases | history refinement |
| C17–C19 | `VoiceManager.cpp`, stealing | invariant over all state-change histories |
| C20 | `SisterVoiceRing.h` on a pointer heap | ring invariant over all add/remove histories |
| C21–C22 | index arithmetic of `Voice::fillWithData` | bounds and congruence for all blocks; witness for the `count` defect |
| C23 | `BufferPool.h` | invariant over acquire/release histories |
| C24 | `FilePool` status/reader-count protocol | inductive invariant over all interleavings of atomic steps |
| C25–C28 | `parser/` reader, top level, directives, expansion | termination measure, print/parse round trip, location law, witnesses |
| C29–C31 | `Opcode.cpp` | list inductions; full table for note names |
| C32–C33 | `Curve.cpp` | exact arithmetic; induction over declarations |
| C34 | `BeatClock.cpp` | exact arithmetic, induction over events |
| C35–C36 | envelopes as sample-stepped state machines | progress measure, block-split law |
| C37–C38 | `ModMatrix.cpp`, `ModKey.cpp` | evaluation semantics on arbitrary graphs; alias witness |
| C39–C43 | smoothers, envelopes from events, crossfades, LFO, power follower | exact arithmetic |
| C44 | `AudioReader.cpp` | induction over block sizes |
| C45 | `FileMetadata.cpp` | termination, bounds |
| C46 | message path matching | induction over pattern |
| C47 | header handling | fold law |
| C48, C52 | index checks | decision logic over all numbers |
| C49 | all-sound-off | history theorem |
| C50 | `BitArray.h` | refinement to sets |
| C51 | off groups | decision logic over all populations |
| C53 | spin lock | inductive invariant over all schedules |
| C54–C55 | note clock and derived controllers of `MidiState.cpp` | history refinement |
| C56–C58 | whole event handling of `Synth.cpp`, `Voice.cpp`, `VoiceManager.cpp` (life of voices) | invariant over all histories of API calls |
| C59 | derived opcode names (`Opcode.cpp`) | round trip over all names |
| C60 | registration of modulation keys (`ModMatrix.cpp`) | refinement to a partial map |
| C61–C62 | preload, streaming and clearing (`FilePool.cpp`) on the file reader model and the interleaving model | induction over chunks; invariant over schedules, racing schedules as witnesses |
| C63 | requests of `renderBlock` on the pool of `BufferPool.h` | bound over all nestings |
| C64–C65 | handlers of `SynthMessaging.cpp` | decision logic over all indices |
| C66 | loop counts in `fillWithData` | induction over blocks |
| C67–C68 | instrument building (`Synth.cpp`, `Region.cpp`) over all parsed files | invariant over headers |
| C69 | buffer operations (`simd/HelpersSSE.cpp`, `simd/HelpersScalar.h`) on a memory with owned addresses | loop invariants for any size and alignment |
| C70 | interpolators (`Interpolators.hpp`, `MathHelpers.h`, `WindowedSinc.*`) over exact numbers; the sinc is any function sampled into the table | closed forms of the weights; bounds of the table index |
| C71 | `Panning.cpp`, scalar, over the reals with the cosine table | index bounds, monotony of the floor and of the cosine, Lipschitz bound |
| C72 | `OnePoleFilter.h`, `OnePoleSmoother` over exact numbers, gain as a parameter | convex combination invariant; closed form by induction on the frames |
| C73 | `checkNotePolyphony`, the stealers and the event kept by a voice, in the engine model | the loop stops a prefix of the sorted list; counting over reachable states |
| C74 | `withinValidTimerRange`, the start stamps of groups, in the engine model | decision stated outright; what a start records |
| C75 | `sampleOffset`, `regionDelay`, `sampleEnd`, `loopStart`, `loopEnd`, `updateLoopInformation`, preload sizes (`Region/Model`) | sums with undefined overflow; values stated outright; bound of the preloaded part over lists of regions |
| C76 | `noteGain`, `velocityCurve`, `crossfadeGain`, `basePitchVariation`, `baseVolumedB` (`Region/Gain`) | values and ranges over rationals and reals, on top of the curve and crossfade models |
| C77 | `EffectBus`, the mixing part of `renderBlock`, setup of the buses at load (`Mixer/Model`) | closed formula for what the host hears, by induction over voices, effects, buses and outputs; setup by a view of each bus through all headers |
| C78 | `cleanUpOpcodeName` rule by rule, as the generated scanner orders them (`Cleanup/Model`) | independent table of old and current names (`Alias`); scanner follows it exactly; current names are fixed points |
| C79 | reader of Scala files, tables of frequencies and the object with its calls (`Tuning/Model`) | invariant over any calls; frequencies against an abstract pitch function `IsScale`; reading against a grammar of files |
| C80 | `StretchTuning` with the actual curves (`Stretch/Model`) | piecewise linear specification; bounds and order of keys for all knob positions |
| C81 | `ControllerSource` with its smoothers, preparation of steps (`Controller/Model`) | non-interference of keys by induction over histories; refinement to one smoother per key; rounding specification |
| C82 | `Region::parseOpcode` key-switch flags on the loader model (`Loader/Switches`) | invariant of all regions of all files |
| C83 | buffers as memory, each `process` on ports (`Effects/Model`) | each effect refines a function on lists, apart and in place |
| C84 | the same, over lists of blocks | each function on lists respects concatenation |
| C85 | `faustCompressor::compute` over the reals (`Effects/Dynamics`) | invariant of the detector; convergence |
| C86 | `Width::process` and its opcode over the reals (`Effects/Width`) | from the panning table; bounds of the cosine |
| C87 | `clear` of each effect (`Effects/Clear`) | silence is a fixed point of cleared states; concrete remains |
| C88 | `faustGate::compute` over the reals (`Effects/Dynamics`) | invariant: counter against the distance to the last loud sample |
| C89 | `faustLimiter::compute` | invariant, closed form, convergence; general counterexamples |
| C90 | detector inputs of `Compressor::process`, `Gate::process` | equality of inputs; concrete counterexample |
| C91 | resampler stages as all-pass filters (`Effects/Energy`) | a stored energy that every stage keeps; induction over signals |
| C92 | the list functions of C83 (`Effects/Settings`) | identity of each function, any state |
| C93 | `computeLfos`, `Bitred::process` (`Effects/Settings`) | algebra of the gains; properties of rounding |
| C95 | every second-order filter and equalizer band of `gen/filters/*.hxx` (`Filter/Model`, `Filter/Section`) | a cascade is iterated sections; stability triangle, poles in the unit disc, driven recursions; growth of a determinant for the violation |
| C96 | same (`Filter/Props`) | steady-state responses satisfy the difference equation; differences from them vanish |
| C97 | same (`Filter/Props`, `Filter/Mixing`) | induction over samples; two-frame witness for the violation |
| C98 | `Filter::prepare`, `Filter::processModulated`, `FilterHolder::process` (`Filter/Wrapper`) | chunk loop equals a per-frame law; induction over blocks |
| C99 | all filter types (`Filter/Mixing`) | linear relation between memories kept by each frame |
| C100 | one-pole types (`Filter/Small`) | equality with a section; energy balance by induction; growth of powers for the violation |
| C101 | state-variable types (`Filter/Small`) | equality with a section, then as C95, C96 |
| C94 | sample rates of all parts (`Synth::setSampleRate`, `setNumVoices`, loads, `Resources::setSampleRate`, `Voice::setSampleRate`, `applySettingsPerVoice`, effect headers) | invariant over all histories; filters violated |
| C102 | counts of filters, equalizers, LFOs, envelopes per voice and what notes and blocks index | invariant over all histories without edit messages; negation for these |
| C104 | decimator of Lofi (`Effects/Hold`) | induction over frames: sample and hold at the ticks of a slower clock; negation when ticks fall on frames |
| C105 | settings that a load resets, sets or leaves (`Synth::Impl::clear`, `prepareSfzLoad`, `handleControlOpcodes`, `resetDefaultCCValues`, `VoiceManager::reset`); histories are lists of calls | relation with a load in a new engine, kept by every control opcode; leaks are witnesses |
| C106 | `VoiceManager::setStealingAlgorithm` and the power following of voices | invariant over later calls; `setNumVoices` violates it |
| C107, C108 | `WavetableOscillator`, memory of `WavetableMulti` with its extended ends (`Wavetable/Props`) | induction over frames with any monotone rounding; exact phase as a fractional part |
| C109 | `MipmapRange`, `createForHarmonicProfile`, spectra of `generate` (`Wavetable/Alias`) | concavity of the logarithm bounds the error of the interpolated index; witnesses |
| C110 | `generate`, harmonic profiles, `createFileWave`, `setupOscillatorUnison` (`Wavetable/Content`) | sums of roots of unity; loops by induction |
| C111–C113 | references, unknown opcodes and labels of `sfizz_wrapper.cpp`, `sfizz_private.hpp` (`Api`) | invariant over call sequences; two loops agree by induction; dangling pointer as an undefined read |
| C114 | `AudioFile.cpp`, `sfizz_import.cpp` (`Import/Props`) | the written text is a printed document, parsed by `Parser.print_parsed`; witnesses |
| C115 | `DecentSampler.cpp` (`Import/Preset`, `Import/Keys`) | same for presets; induction over sorted attributes with frame lemmas for `Region::parseOpcode` |
| C116 | `Synth.cpp` load tables, buses, `SynthMessaging.cpp` edits (`Edit`) | exact characterisation of when an edited region answers; invariant on bus sizes by induction over histories; witnesses for widened keys, new conditions, moved outputs |
| C117 | `Strings.cpp`, `impl/Resonant*.cpp` (`Strings`) | values that may not be numbers; packs as sums over lanes; coefficients in closed form, second-order recursions of `Filter/Recur`; the unused lane is 0/0 |
| C118 | effects/Fverb.cpp, effects/gen/fverb.hxx (`Reverb`) | stability by weighted energy: each comb and filter passes on at most a stated factor of the energy it receives, the reads of the modulated comb repeat at most `1+2J/N` times, so the loop gain stays below one for each of the seven rooms; linearity, silence and causality by a relation between runs; rings refined to lines on `BitVec 32`; three negations with witnesses |
| C119 | Voice.cpp `startVoice`, `renderBlock`, `amplitudeEnvelope`, `applyCrossfades` (`Render/Props`) | a session of blocks composed from the models of MIDI state, envelopes, smoothers and playback; per-frame product, invariant of the smoother over blocks; start gain under stillness, with a negation |
| C120 | Voice.cpp `renderBlock`, `fillWithData` (`Render/Clock`) | closed form of the place of every frame by induction over blocks, compared with the sum of the speeds; the block-boundary error is stated exactly, with a negation |
| C121 | Voice.cpp `pitchEnvelope`, `fillWithData` (`Render/Pitch`) | remaining delay after any blocks by induction, envelope lines pass through events; stillness as invariant; two negations |
| C122 | ADSREnvelope.cpp (`Adsr/Shape`) | closed form of the level at each frame; position of the envelope in the shape as invariant of stages, turns and blocks; release as a second invariant; a negation |
| C123 | SfzHelpers.h, Defaults.h, Defaults.cpp, Region.cpp (`Float32`, `MidiValue`) | binary32 rounding as a function on rationals, shown to be the nearest float, monotone and the identity on floats; the float below shown to be the next one; steps of the MIDI scales stay steps after rounding; then every float is treated as one MIDI number, by the greatest number not above it |
| C124 | Curve.h, Defaults.h (`MidiValue`) | the 128 values are computed (all cases); relative error of two operations for percentages |
| C125 | Layer.cpp, Region.cpp (`MidiValue/Random`) | the half-open intervals and the exception for 1 cover [0,1] once |
| C126 | `FilterPool.cpp`, `EQPool.cpp`, `Voice.cpp` filter stages, `effects/Filter.cpp`, `effects/Eq.cpp` (`VoiceFilter`) | the settings computed step by step as in the code, the law as one sum of cents; the chain as places of different filter classes, by induction over places and blocks from the single-filter theorem of C98; effects by induction over histories |
| C127 | `Voice.cpp` positions, `HelpersSSE.cpp` `cumsum`, `SIMDHelpers.h` cast (`Drift`) | binary32: relative error of a rounded sum of floats, by induction over scalar and vector steps, then over blocks; the split into frame and fraction is exact |
| C128 | `LFO.cpp` `generatePhase`, `Wavetables.cpp` (`Drift`) | binary32: error of one step on the circle, by induction over frames; the stop of slow LFOs as an invariant |
| C129 | `Voice.cpp` `fillWithGenerator`, `setupOscillatorUnison`, `Region.cpp` `getPhase` (`Generator`) | closed form of each mode by induction over blocks, on top of the exact oscillators of C108 |
| C130 | `Buffer.h` (`Memory`) | a heap of blocks whose places the allocator chooses; every access outside a live block, every block freed twice is `none`. Five primitive changes (an object taken away, made, given a new block, given another's block, written) keep one invariant (ownership, separation, counters); every operation is a composition of them and refines operations on values. |
| C131 | Voice.cpp as for C119-C121 (`Render`) | A course of time gives the modulations frame by frame; it is cut into blocks in two ways. Closed formulas for gain, pitch and places of the whole rendering, in which only the total length (and, for the places, the sizes of the first two blocks) appears. |
| C132 | EGDescription.h, Region.cpp `parseEGOpcode`, ADSREnvelope.cpp `reset`/`updateValues`, modulations/sources/ADSREnvelope.cpp (`EgNote`, with `CCMap`, `Curve`, `Midi`, `Adsr`) | What the opcodes build by induction over their list (last one counts); sum over the sorted map is the sum over all 512 controllers; value at the start frame is the last one received, by an invariant of histories; composed with the closed form of the envelope. A negation for dynamic envelopes. |
| C133 | FilePool.cpp `checkSample`, Region.cpp `sample` (`FindSample`) | File system as a tree; how the system resolves paths with dots; the search as a loop over the names. An inductive relation says where a path leads without regard to case; soundness and, without names that differ by case only, completeness, by induction; the relative path leads back. A negation. |
| C134 | modulations/sources/PolyAftertouch.cpp, ChannelAftertouch.cpp (`Controller/Aftertouch`) | The events of a key after a history are those after the part of the history about the key, by induction; composed with the envelope theorem of C40. A negation for the reset. |
| C135 | `Voice.cpp` (pan stages), `Panning.cpp` (ARM version) (`Pan/Stage`) | loops over frames as lists; a frame lemma turns each pass into a map; error bounds of the three passes add up; ARM code as another lookup with its own rounding |
| C136 | `clients/jack_client.cpp`, `clients/MidiHelpers.h` (`Clients`) | specification of MIDI messages by their bytes; decoding inverts it; runs as lists of cycles with a flag for the lock |
| C137 | `clients/sfizz_render.cpp`, the player of `external/fmidi` (`Clients`) | after n ticks exactly the events of frames before n have been given, by induction over ticks and blocks; sorted lists split at a frame |
| C138 | Parser.cpp (`Parser/Blocks`) | An invariant of the parse relates the current header and opcodes to the calls made so far; every turn keeps it. The specification groups the single calls without looking at the state of the parser. |
| C139 | BeatClock.cpp (`BeatClock/Number`) | The two running buffers are always written together; quantisation is shown to be the floor of the position moved by half a step. |
| C140 | `modulations/sources/{ADSREnvelope,FlexEnvelope,LFO}.cpp`, `ModMatrix.cpp` 266-303, `Voice.cpp` (off, sample rate) (`Sources`) | one generator projected out of the voices; every operation either leaves it alone or is one call on it; a used generator, once started, behaves as a new one (relation on ADSR envelopes up to an unused slope) |
| C141 | Region.cpp 1715-1778 and 1853-1875, Synth.cpp 184-191, 910-939 and 2003-2081 (`Connections`) | opcodes as lists of effects on the connections; exact list of the connections of each class read from the opcodes by induction from the end; the matrix decoded to keys, by an invariant of the registrations |
| C142 | MathHelpers.h 622-768, its uses (`Random`) | The congruential generator in closed form; the power of two dividing the geometric sum gives the full period; binary32 bounds of `fast_real_distribution`; counting over a period by bijection; bounds of the sums of `fast_gaussian_generator`. |
| C143 | FlexEGDescription.cpp, Curve.h 36-51 (`Shapes`) | Over ℝ: tables read as chords of the power curve, convexity and Bernoulli's inequality; the shared curves as a state machine with weak references, by an invariant over histories against a list of the shapes asked for. The map is static and without a lock: loading two instruments of one process from two threads is outside of the model. |
| C144 | StringViewHelpers.h 173-206 (`Numbers`) | Exact rational reading; both directions by splitting the text into sign, digits, fraction, exponent and rest. |
| C145 | Region.cpp 55-1778, the opcodes about modulations (`Modulations`) | What each name does to the connections, from its letters and numbers; names of a small grammar written as words and decimal numbers; inversion of the switch for the other names; composed with C141 to give the depths of a region. |
| C146 | Synth.cpp `handleGroupOpcodes`, `buildRegion`; VoiceManager.cpp (`Loader.Limits`) | loader state carries the limits; specification lists what each header says of a group; induction over the file |
| C147 | Synth.cpp:957-980, 2219-2309 (`Slots`) | The slots as bit arrays over the regions that the loader model gives; for every file that loads, the bits are the keys of the ranges. Controllers: the sources of the matrix after the set-up of C141, against `Uses` of the opcodes. |
| C148 | Synth.cpp:1238-1239, 1481 (`Slots/Changed`) | The two sets stepped along the calls of the engine model; induction over histories; with the controller values of C26 no change is left out. |
| C149 | Synth.cpp (`exportMidnam`, key-switch labels), pugixml.cpp (writer) (`Names`) | The document as the list of items pugixml meets, its writer with escaping and indentation, and an independent reader of XML 1.0 (ends of lines, references, attributes, nesting). Round trip by induction over the items; then the entries of controllers and keys as sets. |
| C150 | `external/fmidi` (sequencer), `clients/sfizz_render.cpp` (`Sequencer`) | The sequencer as it keeps pending deltas per track; invariant: all tracks stand at one time and the pending delta is the distance in ticks. Against a specification of merged tracks by places in ticks, shown to be unique, and times by the tempos played. Then through the rendering of C137. |
| C151 | `external/fmidi` reader of MIDI files (`MidiFile`) | An encoder of the standard (variable-length numbers, running status, header, tracks) as specification; reading inverts it, by induction over events and tracks. Every step shrinks the input, so reading ends for all bytes. With C150 and C137: from bytes to calls. |
| C152 | `AudioBuffer.h` (`AudioBuffer`) | the single buffers are lists by C130; histories with any answers of the allocator are related to a table of samples by an invariant that gives every cell of every buffer, also in the space around the frames |
| C153 | `sfizz.cpp:13-48`, `sfizz_private.hpp` (`Handles`) | the count of each synthesizer equals the number of C references plus the C++ variables that hold it, an invariant over all histories of both interfaces |
| C154 | FilePool.cpp, RTSemaphore.cpp, atomic_queue.h (`Requests`) | threads as small programs over the atomic operations of the queue and the semaphore, in every interleaving; an inductive invariant with a ledger per slot (tickets given, requests stored, tickets claimed) gives that nothing is lost or doubled and that nobody waits in vain; a second invariant gives the order for one requesting thread; counterexample for two |
| C155 | ThreadPool.h (`Workers`) | sections under the mutex as steps, sleeping and waking as separate steps with spurious wakeups; an inductive invariant counts the notifications due against the jobs waiting; a measure gives that the threads come to rest |
| C156 | FilePool.cpp (`Workers/Sharing`) | the threads that create and destroy synthesizers as small programs, the assignment of the weak pointer with beginning and end; invariant under every interleaving; counterexample for the data race |
| C157 | FilePool.cpp, Synth.cpp (`Preload`) | the pool as a table of numbers of frames, calls of the API as steps; an inductive invariant over histories relates each entry to the recorded offset, the preload size and the RAM mode; counterexamples for reloading, wrapping, moved entries and empty files |
| C158 | Synth.cpp, FilePool.cpp (`Preload/Embedded`) | the tables of loaded and preloaded files with sounds and counts; what is loaded is shown to be what the instrument means, by induction over headers, regions and edits; counterexamples for reloading, reversing and channels |
| C159 | Layer.cpp:160-192, Synth.cpp:1429-1460 (`Engine.ControllerTrigger`) | the decision of `registerCC` unfolded once; the remembered conditions are those of the history by the invariants of C12 and C14, carried through the regions served before; the turns counted from the calls by induction (`Engine.Turns`) |

Each line is revised below as the work proceeds (section "Status").

## Trusted base

* Lean's kernel (4.33.0), the Lean/Mathlib libraries as installed, axioms `propext`, `Classical.choice`, `Quot.sound`.
* The reading of the C++ source: a theorem is about the model; the citation on each definition is the only tie.
* `#print axioms` on every theorem of `MANIFEST.json` gives a subset of these three. No axiom is declared, and `sorry`,
  `native_decide`, `bv_decide`, `implemented_by` and `unsafe` are not used.
* Modelled (each definition cites its lines): `Range.h`, `MathHelpers.h` (random numbers), `StringViewHelpers.h` (reading of numbers), `CCMap.h`, `SwapAndPop.h`, `Base64.h`, `BitArray.h`, `Messaging.cpp`,
  `MidiState.cpp`, `Layer.cpp`, the event handling and life of voices of `Synth.cpp`/`Voice.cpp`/`VoiceManager.cpp`/
  `VoiceStealing.cpp`/`PolyphonyGroup.cpp`/`RegionSet.cpp`/`SisterVoiceRing.h`, sample positions, level, pitch and counters of `Voice.cpp` block by block, `Opcode.cpp`,
  `Curve.cpp`, `BeatClock.cpp`, `ADSREnvelope.cpp`, `EGDescription.h` (without depth), `FlexEnvelope.cpp`, `FlexEGDescription.cpp`, `ModMatrix.cpp`, `ModKey.cpp`, `Smoothers.cpp`, `OnePoleFilter.h`,
  `ModifierHelpers.h` (envelopes), crossfades of `SfzHelpers.h`, `PowerFollower.cpp`, `LFO.cpp`, the parser, `AudioReader.cpp`,
  the loading protocol and the lookup of names (no symbolic links) of `FilePool.cpp`, `SpinMutex`, `BufferPool.h`, `Buffer.h`, `FileMetadata.cpp`, the dispatch and index handling of
  `SynthMessaging.cpp`, the reading of instruments in `Synth.cpp` and `Region.cpp`, the modulation opcodes of `Region.cpp`, the buffer operations of
  `simd/HelpersSSE.cpp` and `simd/HelpersScalar.h` (exact numbers), `Interpolators.hpp`, `WindowedSinc.*`, `Panning.cpp` (scalar, and `pan` on ARM), the pan stages of `Voice.cpp`, the programs in `clients/` (decoding of MIDI, the JACK cycle, the loops of the renderer; not
  their command lines),
  `RegionStateful.cpp`, `OpcodeCleanup.re`, `modulations/sources/*.cpp`, `Tuning.cpp` with the part of the Surge tuning library that it uses, the buses of `Effects.cpp` and the mixing part of `Synth::renderBlock`,
  the effects Gain, Width, Apan, Strings (any resonator, and the resonators scalar and packed), Rectify, Lofi, Compressor, Gate, Limiter and Disto (any drive stage) with their 2x resamplers, the reverb Fverb (exact arithmetic),
  the generated filters `gen/filters/*.hxx` and `SfzFilter.cpp`, `SfzFilterImpls.hpp` that drive them (exact reals), their settings in a voice (`FilterPool.cpp`, `EQPool.cpp`) and the effects Filter and Eq,
  the settings a load resets (`Synth.cpp`), `import/*` (without reading XML), references, unknown opcodes and labels of `sfizz_wrapper.cpp`, `Wavetables.cpp` (kissfft by its documentation) and oscillator notes (`fillWithGenerator`) of `Voice.cpp`,
  the tables a load leaves to edits by message (`Synth.cpp`, `SynthMessaging.cpp`),
  the scaling of MIDI numbers (`SfzHelpers.h`, `Defaults.h`, with binary32 rounding),
  the modulation connections of regions (`Region.cpp`, `Synth.cpp`; opcodes by their effects),
  what the engine reports of keys, key-switches and controllers (`Synth.cpp`; the sets of controllers as functions),
  the export of names (`Synth.cpp`) with the XML writer of `pugixml.cpp` (bytes as characters),
  the sequencer of MIDI files (`external/fmidi`, formats 0 and 1, exact times),
  the reader of MIDI files (`external/fmidi`, all of its repairs of broken files, from bytes in memory),
  multi-channel buffers (`AudioBuffer.h`),
  the ownership of synthesizers by C++ objects (`sfizz.cpp:13-48`),
  the queue of sample requests (`atomic_queue.h:199-289`, `FilePool.cpp:432-458, 563-583`), sequentially consistent,
  the pool of loading threads (`ThreadPool.h:12-110`) and its sharing (`FilePool.cpp:50-71`), sequentially consistent,
  the numbers of preloaded frames (`FilePool.cpp:310-384, 460-478, 634-655`, `Synth.cpp:261-298, 608-663, 892-901, 2083-2093`),
  embedded samples (`Synth.cpp:555-594, 732-767`, `FilePool.cpp:234-244, 282-317, 386-442`),
  how sample rates and per-voice counts travel (`Synth.cpp`, `Voice.cpp`, `Resources.cpp`, `/region&/add_filter`, `/region&/add_eq`).
* Not modelled: the C++ memory allocator, compiler, AVX and NEON code paths (but for `pan`), file-system access (beyond the lookup of names),
  audio codecs, host wrappers (VST/LV2/AU), floating-point rounding outside of `Float32`/`MidiValue`/`Drift`.

<!-- status -->
## Status

Generated from `MANIFEST.json`. `partial` is either a property the code breaks somewhere (the witness is a `…_violated` theorem, the rest is proved) or one proved under the hypotheses named in the note.

| id | property | status | modules | note |
|----|----|----|----|----|
| C01 | Value ranges stay well formed and membership is the interval | partial | `Range/Props` | shrinkIfSmaller on a disjoint interval yields an interval that is not the intersection (range_shrink_violated); every other operation is proved. |
| C02 | Controller map behaves as a finite map | proved | `CCMap/Props` |  |
| C03 | Filter-removal keeps exactly the elements that should stay | proved | `SwapAndPop/Props` |  |
| C04 | Base64 embedded samples decode to the encoded bytes | partial | `Base64/Props` | Whitespace after the padding makes the decoder return nothing (base64_trailing_space_violated). |
| C05 | OSC messages round-trip | partial | `Osc/Props` | Doubles pass through float in the encoder (osc_double_violated). Buffers below 2^29 bytes. |
| C06 | OSC encoding reports the full size and never overruns the output buffer | proved | `Osc/Props` | Total message size below 2^32 (the size is a uint32_t). |
| C07 | OSC decoding never reads outside the received bytes | partial | `Osc/Props` | Blobs announcing 2^32-3 bytes or more are accepted although outside of the message; signatures of 2^29 tags overflow the argument array. |
| C08 | MIDI event buffers stay time-ordered and keep the latest value per instant | proved | `Midi/Props` | The controllers the engine derives from its note history are covered by C55. |
| C09 | Block end keeps only the final value of every controller | proved | `Midi/Props` |  |
| C10 | Controller value at a given frame is the most recent event at or before it | partial | `Midi/Props` | Between two events the code returns the value of the next one; midi_value_at_is_next is the exact behaviour. |
| C11 | Held-note bookkeeping matches the key presses | partial | `Midi/Notes` | The count drifts when a key is pressed twice or released while up. |
| C12 | A region sounds only if all of its MIDI conditions hold | partial | `Engine/Heard`, `Engine/ReleaseTrigger`, `Engine/Triggering` | For every history without a reset of all controllers, at the turn of each region: triggered iff all conditions hold for the last values received. Excluded, with witnesses of failure: bend after CC121, tempo conditions, conditions on controllers derived from notes; sw_up/sw_down regions. hears_history_partial says the same of note-offs. |
| C13 | Round-robin regions cycle fairly | proved | `Engine/Triggering` | For every history; regions that trigger on notes only and 1 <= seq_position <= seq_length. |
| C14 | Key-switches are exclusive and persistent | partial | `Engine/Triggering` | sw_last and sw_lolast/sw_hilast for every history; sw_down fails (witness). |
| C15 | Notes held by the sustain pedal are released when it is lifted | partial | `Engine/PedalProps` | For every history of in-order events and every region listening to both pedals: key up and pedals up imply released, and a release without choke implies note-off received and no pedal holding. Fails for sostenuto_sw=off or sustain_sw=off (each pedal handler is guarded by the other pedal's switch): two witnesses. Missing: early release within blocks (sound ends by itself) and within the reset of all controllers. |
| C16 | Release-triggered regions play once per held note on pedal lift | partial | `Engine/Heard`, `Engine/ReleaseTrigger`, `Engine/Releases`, `Engine/ReleasesNow`, `Engine/ReleasesPlay` | Proved for every history of calls, both pedals and CC 121 included, without off_by, and when the polyphony limits leave room: what waits is exactly what was heard with the pedal down of keys not caught by the sostenuto pedal, the lift of either pedal plays one voice per release it sets free, a note-off with the pedal up plays at once. Violations: CC 121 lifts the pedal without playing or forgetting, the sostenuto lift plays releases of held keys, all sound off keeps the waiting releases. |
| C17 | Active-voice bookkeeping is exact | proved | `Engine/Props` | For every history of API calls on every instrument. Voices of regions disabled at load are never listed. |
| C18 | Polyphony limits are enforced | partial | `Engine/Props` | Proved for limits of at least one, for engine, groups, sets and regions. A limit of zero still lets one voice sound (witness). |
| C19 | Starting a note never takes over a voice that is in use while a free one exists | proved | `Engine/Props` | Choice of the voice for every state; with at most 256 voices required every start on a reachable state gets one. |
| C20 | Voices started together stay linked until each ends | partial | `Engine/Rings` | For every start/end history in which the first voice of an event lasts until its last one starts, walking the ring visits exactly the voices of the event that have not ended, once each, and closes; for every engine history the rings close, hold only playing voices once each and are disjoint. sisters_split_violated: when the first voice is recycled by its own event the ring splits. Missing: the engine's dispatches are linked to the start/end histories only through the shared ring operations, not by a refinement theorem. |
| C21 | Sample playback never reads outside the sample | partial | `Playback/Counts`, `Playback/Crossfade`, `Playback/Props` | Proved for regions without count=; with count= it holds when the played part is in memory and speeds are below its length. The code violates it otherwise: witnesses for repeating while streaming, offset after the end, high speed, and loop_count with crossfade and a modulated end. Positions are exact rationals; int overflow not modelled. |
| C22 | Looped playback wraps exactly | proved | `Playback/Loops`, `Playback/Props` | For all loop points, speeds, start positions and block splits, with exact positions and at most 2^24 frames of advance per block. The loop points are constant over the blocks considered. |
| C23 | Temporary audio buffers are exclusive | partial | `BufferPool/Props` | Exclusive lending, sizes and request outcomes over all histories of requests, moves, assignments and destructions. Return of all buffers is proved for histories that do not assign over a non-empty holder; otherwise the old buffer is lost (witness). The engine itself never does that (Voice.cpp:1149 assigns to empty holders). |
| C24 | Sample data in use by a voice is never garbage collected | proved | `FilePool/Props` | Any number of voices and jobs, all interleavings of single atomic accesses (sequentially consistent, as the code's default memory order). One entry of the pool; entries share only the lock. Replacement of preloaded data and clearing are outside (see C62). |
| C25 | Parsing terminates on every input | partial | `Parser/Expand`, `Parser/Props`, `Parser/Termination` | Every parse finishes if every expansion of variables does, for all texts and include graphs (cyclic included); expansion finishes for definitions that do not refer to themselves, in particular when no #define value has a dollar sign. The unrestricted claim is false: '#define $a $a' followed by a use of $a never finishes (parse_terminates_violated). |
| C26 | Parsing returns the document that was written | proved | `Parser/Print`, `Parser/RoundTrip` | document_parsed is over a grammar of texts with layout, definitions and includes; print_parsed is the same for documents given as lists. Well-formed excludes, for texts given as strings only, the byte 255 (print_parsed_violated shows that the value is cut there), values that run into the next opcode, and opcodes before the first header. |
| C27 | #define expansion substitutes exactly the definitions | partial | `Parser/Expand` | For any definitions the expansion is exactly the repeated replacement of variables by their values (expand_rounds). It equals the recursive substitution Subst when no definition's value ends in an unfinished reference; otherwise the code violates it: characters after the value extend the name (expand_local_violated). |
| C28 | Parser positions are exact | proved | `Parser/Props` | Positions are those of the text without the bytes 255 when the text is given as a string (the string reader takes such a byte for the end of the text without counting it). |
| C29 | Opcode names are decomposed reversibly | partial | `Opcode/Names` | Every name is an assembly of letters and numbers; parameters, hash and letters-only name are those of the assembly for numbers below 65536. Larger numbers are truncated or dropped (violations). |
| C30 | Numeric opcode values respect their declared bounds | partial | `Opcode/Values` | Integers proved for every text and specification; floats as exact rationals. Enforced float bounds are not normalized (latent). |
| C31 | Note names map to MIDI keys correctly | partial | `Opcode/Values` | Every name with an octave that does not overflow int is read as its key and nothing else is; empty text and huge octaves are undefined behaviour (violation). |
| C32 | Curves interpolate their points | proved | `Curve/Props` | Exact rationals; linear interpolator (the only one instruments can select). |
| C33 | Curve numbering follows the instrument | proved | `Curve/Props` | Every sequence of declarations; unnumbered declarations after a numbered one are rejected, as the code documents. |
| C34 | The beat clock conserves time | partial | `BeatClock/Props` | Exact for events inside a cycle; in the synth, events precede the cycle and late delays are counted twice (violation). Exact rationals. |
| C35 | Amplitude envelopes always finish and stay in range | partial | `Adsr/Props`, `Adsr/Range` | Exact rationals. Levels in [-0.02/sampleRate, 1]; released and one-shot envelopes end. The code violates the exact lower bound, block-split independence, and the end of dynamic envelopes with delay or hold over 16 frames. |
| C36 | Flexible envelopes follow their points | partial | `FlexEG/Props` | Frame-exact specification for every point list, sustain point, trigger delay and history of blocks and releases (exact arithmetic, constant controllers, times not negative, no free running). With changing controllers and in dynamic mode: order and waiting at the sustain point. Violated: a release asked before the trigger delay is over comes late; free-running envelopes depend on the block sizes. |
| C37 | Each modulation target receives the combination of its sources exactly once per block | partial | `ModMatrix/Props` | Exact arithmetic, black-box generators. Termination for every graph; values and exactly-once for graphs without cycles; on cyclic graphs a self-dependent source is generated twice. Violated for the pressure on the keys as controller 130: it is a source shared by all voices, and the voice that asks first decides what the others get. |
| C38 | Controller-driven depth of one modulator does not affect another | partial | `ModMatrix/Keys` | Two LFOs (or two envelopes) on the same parameter share the depth control: violated; the keys differ in all other cases. |
| C39 | Smoothing never overshoots and reaches its target | partial | `Smoother/Arrive`, `Smoother/Props` | Exact arithmetic. Bounds hold for every history of blocks. For smoothing times of 16 frames or more the outputs to a constant input are the straight line in exactly the smoothing time for every split into blocks; from 2 to 15 frames arrival within 16 frames is proved and independence of the split is refuted (smoother_split_violated). The vector code is proved equal to the plain loop in every reachable state. |
| C40 | Event-to-envelope rendering covers the block and hits the events | partial | `Controller/Props`, `Envelope/Props` | Exact arithmetic. Proved for every history of MIDI calls (delays not negative), every controller, block size and value mapping. The quantized variant is proved to write every frame once with multiples of the step within the bounds and to end at the last event's value; that it passes through every event at its frame is refuted. multiplicativeEnvelope has no caller and is not modelled. |
| C41 | Crossfade gains are in [0,1] and monotone | partial | `Crossfade/Props` | Exact real arithmetic, non-empty ranges. Key fades and value fade-outs hold in full; the value fade-in holds on the 128 values of 7 bits and is refuted between them (gain up to 1.9 for a range of one step). A fade-out with equal bounds never fades (key_fade_out_violated). |
| C42 | LFO output is bounded, its step index valid and its shape the one described | partial | `Lfo/Hold`, `Lfo/Props` | Exact arithmetic: every wave lies in [-1,1], the step index is valid, the whole output is bounded for every history of blocks, and it is the closed formula of its subs (free running or following the beats). In float a tiny negative phase wraps to 1 and the step read lies after the last one. After a delay, modulations and beats are read from the beginning of the block, so the LFO is off until the block ends. |
| C43 | Power measurement does not depend on block sizes | proved | `Power/Props` | Exact arithmetic; blocks up to the configured block size. The estimate is that of the frames taken one by one for every split, stays within the squared range, and never leaves the temporary buffer; a longer block would (power_long_block_violated). |
| C44 | Reversed reading equals the reversed file for any block size | proved | `AudioReader/Props` | For files which deliver the frames they declare (the property's files). For truncated files the two reverse readers are shown to differ (reverse_readers_agree_violated). The decoding library is represented by the samples it delivers. |
| C45 | Sample metadata parsing is memory-safe and terminates | partial | `Metadata/Props`, `Metadata/Safety` | For every byte string, from disk or memory: opening ends, and extraction is defined (RIFF) or defined when every marker has a name (AIFF). For every well-formed RIFF, AIFF or FLAC file the chunks, the sampler loops and the loop used by the engine are those written. Violated: a marker without a name divides by zero for memory sources; a last odd chunk without pad byte is refused from memory only. Not modelled: the clm wavetable text, disk errors. |
| C46 | Message paths dispatch to the right handler with the right indices | proved | `Messages/Props` | For every path and signature, over the engine's whole pattern table (extracted from the source): the handler that runs is that of the one pattern the path instantiates, with the indices in the path. The 485 case labels are computed and shown distinct. |
| C47 | Opcode inheritance order | partial | `Loader/Props` | Each region has exactly the settings of the opcodes in force (global, master, group, own, in this order), for all files whose opcodes are accepted or refused by name (sfz_regular: all files without numbered LFO/envelope opcodes). Violated otherwise: an opcode refused in one region is ignored in all later ones. |
| C48 | Every controller index used is inside the controller table | partial | `Loader/Keys` | Every controller number stored by any opcode of any file is below 512, except for the seven opcodes that compare with > (controller 512 accepted), shown as violations, as is set_cc512. The value conversions of controller opcodes are not modelled. |
| C49 | All sound off silences everything | proved | `Engine/Props` | Voices after CC 120, CC 123 and the API call; keys after CC 120 and CC 123. |
| C50 | Bit sets behave as sets | proved | `BitArray/Props` |  |
| C51 | Off-by groups silence exactly the voices they should | partial | `Engine/OffExact`, `Engine/OffGroups` | Completeness for every instrument and state on note-ons; exactness for note-ons after every history of an instrument without release regions while the polyphony limits leave room (a choke that starts releases, or a limit, can turn off further voices), and of the choke step for controller-triggered voices. The literal statement fails on repeated notes: voices of the same key and group are exempt even when started by another event (witness). |
| C52 | Key transposition of an instrument stays on the keyboard | partial | `Loader/Transpose` | All key numbers of all regions of all files are on the keyboard and transposed by the offsets in force, clamped at the ends. Missing: sw_default leaves the keyboard; sw_lolast/hilast are not transposed; an empty range can become playable; the sum of offsets can overflow. |
| C53 | The spin lock gives mutual exclusion | proved | `SpinLock/Props` | Any number of threads, all interleavings. |
| C54 | Reported note duration is the time since the key was pressed | partial | `Midi/Notes` | Durations below 2^32 samples (the clock is unsigned). A change of the sample rate while the key is held is the exception: the duration then counts from the change on (midi_duration_rate_violated). |
| C55 | Controllers derived from the notes | proved | `Midi/Notes` |  |
| C56 | Every call is defined and returns | proved | `Engine/Props` | With limits of at least one for the envelope stealer; a polyphony of zero with that stealer reads the front of an empty list (witness). |
| C57 | A voice's age counts the frames since its start | partial | `Engine/VoiceLife` | For every history: zero before the first block, plus n per later block of n frames. In the first block the code computes min(n - delay, 0) instead of n - delay, so the literal statement fails (witness). |
| C58 | A choked voice stays choked | partial | `Engine/VoiceLife` | Holds for every history when sustain_cancels_release is off; with it on, a pedal event revives a choked voice (witness). |
| C59 | Companion controller opcodes concern the same target and controller | proved | `Opcode/Names` | All names and kinds. |
| C60 | Registering modulations keeps identifiers and connections consistent | proved | `ModMatrix/Keys` | Keys abstract. |
| C61 | Preloaded and streamed sample data are the same sound | partial | `AudioReader/Props` | Proved for preloading and streaming, including truncated files (except the fast-seeking reverse reader there). Violated when RAM loading is switched on after preloading: the last frame is lost (ram_switch_violated). |
| C62 | Loading a new instrument never destroys sample data a loading job still uses | partial | `FilePool/Clear` | Violated: the wait covers dispatched jobs only, a request still queued can become a job after it (clear_violated, wait_violated). Proved for clearing that begins with an empty queue. |
| C63 | Rendering never runs out of temporary buffers | proved | `BufferPool/Demand` | Over the request structure of renderBlock for arbitrary voices; with one mono or index buffer less it would fail (pool_is_tight). |
| C64 | Message indices never reach outside the engine's tables | partial | `Messages/Props` | All accesses by index in the handlers. Violated: /cc512/value reads past the controller table; /voice4294967295/... passes the signed comparison; point 4294967295 wraps to the hidden first point. |
| C65 | Voices have room for everything a region holds | partial | `Messages/Props` | Holds after loading and when envelopes are added; there is always room for all envelopes. Violated: add_filter and add_eq size the voices by the number of envelopes. |
| C66 | Loop count is respected | partial | `Playback/Counts` | Holds for blocks that do not begin at the loop point; the code plays the loop once more when a block begins there (witness). |
| C67 | Every instrument text is read without fault | partial | `Loader/Keys`, `Loader/Transpose` | Proved for all files without the opcodes that are shown to violate it (controller 512 in seven opcodes, set_cc from 512, LFO/envelope opcodes without number, extreme offsets). |
| C68 | Headers limit the polyphony of the regions under them | proved | `Loader/Sets` | For all files. |
| C69 | Vectorised buffer operations equal the scalar ones | partial | `Simd/Props` | Proved for exact numbers, any size and alignment. False for multiplyAdd, multiplyMul and divide when the gains or divisors are aligned differently from the output (the vector load faults), for multiplicativeRamp with a zero step and for diff in place. |
| C70 | Interpolation of samples | partial | `Interp/Props` | Exact numbers. The B-spline does not go through the samples (by design). The sinc lookup is false: an integer division makes every lookup slightly left of its place, and four entries at the start of the table are overwritten; the size of the error is bounded. |
| C71 | Panning and stereo width | partial | `Pan/Props` | Real numbers; the scalar version (the NEON version is in C135). Constant power fails exactly halfway between two table entries, where both lookups round up. |
| C72 | One-pole smoothing | proved | `Smoother/OnePole` | Exact numbers; the tangent computed by setSmoothing is a parameter between 0 and 1. |
| C73 | Which voices stop to make room for a start | proved | `Engine/NotePoly` | After every history, for limits of at least one (the parser enforces it). std::sort leaves the order of equal voices open; the model's is stable. The choice of the envelope stealer is left open. |
| C74 | Timer conditions | partial | `Engine/Timer` | False when the latest start of the group is delayed and has not sounded yet: the unsigned difference wraps and counts as more than a day. Proved otherwise, for clocks below 2^32. That nothing but starts changes the recorded times is part of the lemmas, not stated over whole histories. |
| C75 | Start, end and loop points stay inside the sample | partial | `Region/Props` | Controller values are exact. Violated: a negative offset_random gives the standard library an empty interval; negative offset modulations lower the part read in advance below reachable starts; a preload size near 2^32 wraps to nothing. |
| C76 | Loudness and pitch of a note | partial | `Region/Gain` | Exact numbers. Violated: tracking beyond 100 %, which the parser accepts, makes the gain of soft notes negative. Velocities and controllers of 7 bits in the range theorems (fade-ins fail between them, see C41). |
| C77 | Every voice reaches its output once, through the buses the instrument asks for | partial | `Mixer/Props` | Proved for any voices whose outputs are within the loaded instrument and an even number of channels, samples being exact rationals and the effects a parameter that keeps the number of frames. It fails when the output of a region is changed by a message while notes play (outside of the table of buses, or an output that is never mixed), and with one channel or an odd number of channels and several outputs (a channel that does not exist is written). |
| C78 | Old spellings of opcodes mean the same as the current ones | partial | `Cleanup/Props` | Exact for regions and for any text without NUL bytes; idempotent for any text and header. Violated in group headers: polyphony_group is not read as group there. |
| C79 | Microtuning follows the scale, the root key and the reference frequency set last | partial | `Tuning/Props`, `Tuning/Scl` | For any calls, the frequencies are those of the scale, root key and frequency set last; reading follows the format. Partial: text after a ratio must not contain a period or a slash (the code misreads it, scl_tail_violated); frequency 0, negative ratios, huge root keys and huge counts are not handled by the code; a file that failed to load is never reported as changed. Reals instead of floats. |
| C80 | Stretch tuning is continuous, bounded and keeps the order of the keys | partial | `Stretch/Props` | Knob interpolation, bounds and order of keys for keys from 0 on, with the actual curves. Below key 0 the factor jumps (violated); with a reference frequency of 0 the conversion to int is undefined. Reals instead of floats. |
| C81 | What a controller modulates with | partial | `Controller/Props`, `Controller/Resets`, `ModMatrix/Props` | Exact arithmetic. Unsmoothed voice controllers are exactly the voice's own value after every history; sources are independent; smoothing is one smoother per source. Violated: with smoothing, voices of a region share the smoother; pitch bend at rest glides from a wrong start; steps are not scaled for voice controllers and ignored with negative depths; controller 130 gives all voices the pressure of one key. |
| C82 | A key-switched region waits for its switch | partial | `Loader/Switches` | For all files whose sw_last and sw_down are keys. Violated: a later sw_down (or sw_last) that is not a key cancels the wait for the other one. |
| C83 | A chain of effects is its effects in turn | partial | `Effects/Props` | For all chains where a distortion comes first at most. Violated by a distortion after another effect: run in place, it reads its own dry mix. |
| C84 | Effects do not depend on the block size | partial | `Effects/Props` | For all chains with a distortion first at most and no linked channels. Violated by linked channels, whose detector reads the second sample of the block. |
| C85 | A compressor follows its threshold and ratio | proved | `Effects/Dynamics` | Over the real numbers; the detector of the code with its oversampled input. |
| C86 | The width effect does what its percentage says | partial | `Effects/Width` | Holds for the member in percent and so without the opcode. Violated for every value of the opcode, which is divided by 100 twice. |
| C87 | All sound off silences the effects | partial | `Effects/Clear`, `Effects/Hold` | For gain, width, apan, strings (resonators silent once cleared), rectify, lofi, disto (first). Violated by limiter, compressor and gate, whose resamplers are not cleared. |
| C88 | A gate opens above its threshold and for its hold time | proved | `Effects/Dynamics` | Over the real numbers; the detector of the code with its oversampled input. |
| C89 | A limiter keeps the signal within full scale and leaves quiet signals alone | partial | `Effects/Dynamics` | Never amplifies; quiet signals are faded in exactly as stated; steady loud signals end at full scale. Violated: quiet signals are attenuated at the start, and sudden sounds come out over any bound. |
| C90 | Linked channels are measured together | partial | `Effects/Dynamics` | Holds for a right channel of constant level. Violated otherwise: the detector is given the second sample of the right channel at every instant. |
| C91 | Effects that only attenuate never add energy | proved | `Effects/Energy` | Over the real numbers; compressors and gates with channels of their own. |
| C92 | Effects in neutral settings leave the signal alone | partial | `Effects/Settings` | For gain, width, apan, strings, lofi and a distortion as first effect. Violated by a distortion after another effect. The effects that resample are not transparent. |
| C93 | The auto-pan balances and the bit reducer rounds | proved | `Effects/Settings` | Exact numbers. |
| C94 | The sample rate reaches everything | partial | `PerVoice/Props` | Proved for everything but filters and equalizers after any history; for these: right after setting the rate, and always one of 48 kHz or the engine rate. Violated: new filters made by a load or a voice-count change stay at 48 kHz (Voice.cpp:1802-1822). |
| C95 | Filters and equalizer bands are stable | partial | `Filter/Props` | Proved for every cutoff below half the sample rate. Violated above it: the generated code limits the cutoff to 20 kHz, not to half the sample rate, so at 24 kHz a low-pass at 18 kHz turns a click into an unbounded sound. |
| C96 | Filters have the documented gain at their landmarks | proved | `Filter/Props` | Below half the sample rate, for the second-order families and equalizer bands; exact real arithmetic. |
| C97 | An equalizer band at 0 dB changes nothing | partial | `Filter/Mixing`, `Filter/Props` | Holds while frequency and bandwidth stand still. Violated while they move: numerator and denominator use delays of different sections of the recursion, so a 0 dB band with a moving frequency alters the sound. |
| C98 | A filter's answer does not depend on history, block sizes or other channels | partial | `Filter/Wrapper` | History, block cuts and channels are irrelevant under constant controls; under moving controls cuts at multiples of 16 frames are irrelevant and other cuts matter (violation shown). |
| C99 | Filters are linear | proved | `Filter/Mixing` | Any filter type, one channel, arbitrary control curves, from a cleared memory. |
| C100 | One-pole filters are stable and keep their promises | partial | `Filter/Small` | All-pass and band-reject are unstable for cutoffs above the sample rate over pi (15.3 kHz at 48 kHz): violation shown. The band-reject doubles steady levels. |
| C101 | State-variable filters behave like their ordinary counterparts | partial | `Filter/Small` | The low-pass output of the generated code uses the state after twice the step; low-pass and band-reject therefore miss their landmarks (violations shown); high-pass and band-pass are right. |
| C102 | Voices always own what their region needs | partial | `PerVoice/Props` | Proved for all histories without add_filter/add_eq messages. Violated by those: they raise the count to the number of envelopes (SynthMessaging.cpp:490, 522), and they replace the envelopes of sounding voices. |
| C104 | The decimator is a sample and hold | partial | `Effects/Hold` | Proved for every clock none of whose ticks falls exactly on a frame; ticks on a frame are lost, and a depth exists at which the effect is silent for every input. |
| C105 | Loading an instrument forgets the previous one | partial | `Reload/Props`, `Reload/Told` | Proved for everything the load resets, for controllers that the instrument sets and for settings that it tells. The code violates the rest: image_controls, hint_sustain_cancels_release and set_cc values leak into the next instrument; a reload loses the standard controller names and keeps removed defaults (witnesses proved). |
| C106 | Voices measure what the stealing algorithm compares | partial | `Reload/Props` | Proved for all histories without a change of the number of voices after the load; the code violates it after such a change (witness proved). |
| C107 | An oscillator reads its waveform and nothing else | partial | `Wavetable/Between`, `Wavetable/Props` | Proved for all increments per frame that fit a 32-bit integer, with any monotone rounding. Violated beyond: a frame that advances by 2^31 periods is undefined behaviour, and pitches are not limited. |
| C108 | The pitch of an oscillator is exact and independent of blocks | proved | `Wavetable/Props` | Exact arithmetic for the pitch (increments that fit 32 bits); block laws for any rounding. |
| C109 | Oscillators do not alias | partial | `Wavetable/Alias` | Proved for frequencies 0 to 22050 Hz without detuning with a margin of 1.44% over half the reference rate. Violated: exactly at half the reference rate near borders of tables, by detuned oscillators (table chosen without the detuning), and by negative frequencies of frequency modulation (lowest table chosen). |
| C110 | What the waveforms are | proved | `Wavetable/Content`, `Wavetable/Shapes` | Exact arithmetic; the transforms of kissfft are taken from its documentation. Files with as many frames as a table; files of other lengths are resampled by the transform and not covered. |
| C111 | References keep a synthesizer alive | proved | `Api/Props` | For all interleavings of calls by holders. The counter is atomic in the code; calls are modelled as atomic steps, memory ordering is not modelled. |
| C112 | The list of unknown opcodes is complete and well formed | proved | `Api/Props` | The loop that measures and the loop that writes agree for every list of names; the result is terminated at the last allocated byte. Names come from the parser, hence without zero bytes and commas. |
| C113 | Labels returned by the C interface are readable | partial | `Api/Props` | Numbers and null results are right for all indices. The text is violated for every label: the vector of labels is copied (auto without &), and the returned pointer is into the destroyed copy. Repaired version by reference is proved. |
| C114 | An audio file loads as a one-region instrument | partial | `Import/Props` | Proved for all paths whose file name can be quoted as an opcode value; violated for names with angle brackets, with a space, a name and an equals sign, with $, leading * or a backslash. |
| C115 | A DecentSampler preset loads as what it says | partial | `Import/Keys`, `Import/Preset` | Structure and opcodes for all presets with quotable texts; exact key range and centre for samples that give all three, for all outcomes of the unstable sort. Violated: a range given by the group is lost for samples that give their root note; round robins never play beyond the first position as no sequence length is written. XML reading and real-number formatting are not modelled. |
| C116 | An edited region behaves as the edited instrument | partial | `Edit/Props` | Proved exactly: an edited region answers a key iff both the loaded and the edited range contain it (so narrowing works), conditions on controllers the region listened to at load are obeyed from the next event on, and rendering is safe and complete while edits keep to the loaded outputs. The code violates the rest: widening a key range has no effect, a condition on a new controller is never looked at, and moving a region to another output reads past the table of outputs, or is silent, or overruns a stale buffer after a block size change. |
| C117 | String resonance is finite, bounded and dies out | partial | `Strings/Props` | Exact real arithmetic. Proved for numbers of strings that fill the packs (and all numbers on the plain path, one lane). Violated otherwise: unused lanes compute 0/0, and every frame after the first is not a number, silence included. |
| C118 | The reverb is stable | partial | `Reverb/Props` | Stability proved in exact arithmetic for sampling rates from 44100 to 1000000. The code violates three parts: the frame counter overflows after 2^31 frames, the dry signal is faded in from nothing after each load or change of rate, and predelays above 65536 frames are cut short. |
| C119 | The level of a voice is the product of its gains | partial | `Render/Props` | The start is proved when no crossfade controller moves in the block of the start. The code violates the rest: the crossfade gain of the start comes from the last value of the block's messages, then is led through the whole block's messages. |
| C120 | A sample plays on without gaps over blocks | partial | `Render/Clock` | The code violates it: the age of a voice stays 0 after its first block, so a voice that starts in its first block repeats a frame at the second one, and a voice that starts after its second block skips its first frame. Exact positions are proved for all cases, the clock is right when the voice starts in the second block. |
| C121 | Bends and pitch modulation sound at their frames | partial | `Render/Pitch` | Proved for every block after the start. The code violates it in the block of the start, where bends and pitch modulation come later by the delay of the voice, and at the start with bend steps and smoothing. |
| C122 | The stages of an envelope take the times asked for | partial | `Adsr/Early`, `Adsr/Seconds`, `Adsr/Shape` | Exact arithmetic, constant parameters, sustain level above the free-running threshold. A release of t seconds decays for t to 37/36 t seconds before its last fade. A release before the end of the delay waits for it and starts from the start level, whatever the blocks. The code violates it when the delay ends exactly with a block (a later release comes one frame late), and for a release exactly at the end of the delay (one frame of the attack is made first, so that with no attack the release goes from full level). |
| C123 | Conditions on MIDI values mean what the numbers say | partial | `Float32/Props`, `MidiValue/Props` | Proved with the binary32 rounding of the code, for MIDI numbers and for every float between them. Bends: the wheel at -8192 counts as -8191, high definition bends between two numbers meet neither range, and upper bounds with a fraction let in one number too many (shown). |
| C124 | Values come back as they were given | partial | `MidiValue/Props` | Curves exact; percentages come back to 22 bits, not always to the last one (amplitude=15 is reported as 15.000001). |
| C125 | Random alternatives: exactly one plays | proved | `MidiValue/Random` | Bounds are read as floats; the same number goes to all regions. |
| C126 | Filters and equalizers of a note obey key, velocity and modulation | partial | `VoiceFilter/Effect`, `VoiceFilter/Props` | Proved over the reals for every description, key, velocity and history. The cents law fails when the cutoff before modulation passes 20 kHz and the modulation lowers it: it is limited before modulation (cutoff_law_violated). The chain theorem is for modulation that does not move within a note; filter classes come in through the laws proved for C95-C98. |
| C127 | Rounding does not detune a note however long it lasts | proved | `Drift/Props` | Binary32 rounding of every operation; for every split of the running sum into scalar and vector steps. Speeds are given floats; a block has fewer than 2^20 frames and passes at most 2^22 frames of the sample. Loops take whole frames off and are not in this model. |
| C128 | LFOs and oscillators run at the frequency asked for, however long | partial | `Drift/Props` | Binary32 rounding. The frequency is off by at most the sample rate times 2^-24 (0.003 Hz at 48 kHz). For slow LFOs that is as much as the frequency: below the sample rate times 2^-25 (0.0014 Hz at 48 kHz) the phase never passes one half. |
| C129 | Oscillator notes sound as their mode says | partial | `Generator/Props` | Real numbers, increments below 2^31 periods per frame. Violated: a start phase set by a message is not wrapped, so the first frame reads outside of the tables; unisons of even size are out of tune on average. Noise is not modelled. |
| C130 | Audio buffers behave like values, stay inside their memory and are reported exactly | partial | `Memory/Props` | Proved for every history in which the sizes asked for stay 30 elements under the largest of size_t. Violated above: the sum wraps and the buffer has no memory (sizes that come from negative block sizes). The counters are integers; one thread at a time. |
| C131 | The sound of a note does not depend on the block size | partial | `Render/Blocks` | Notes that start at the beginning of a block while bend and crossfade controllers stand still: gain and pitch for all ways to cut; places in the sample for samples that do not end or loop, when the first two blocks have the same sizes. Violated otherwise: the clock error of C120 depends on the size of the first block, and messages are led from the beginning of the block they arrive in. |
| C132 | The stages of a note's envelope follow its velocity and the controllers at its start | partial | `EgNote/Props` | Proved for envelopes that are not dynamic. With ampeg_dynamic the stages are re-read with the value of the next message (dynamic_stage_violated). Released notes: see C122. |
| C133 | Samples are found whatever the case of their names and the direction of the slashes | partial | `FindSample/Props` | Found exactly when a match exists, for file systems in which no directory holds two names that differ by case only; otherwise the search follows the first one only and can miss the sample (two_cases_violated). What is found always matches. |
| C134 | Aftertouch modulates each note with the pressure on its own key | partial | `Controller/Aftertouch` | Proved for all histories with delays that are not negative (exact arithmetic), except that reset of all controllers leaves the pressure as it was (reset_pressure_violated). |
| C135 | The pan stage of a voice places every frame by its own setting | partial | `Pan/Stage` | Every frame is placed by its own setting within half a step of the table; the level in the centre is below one by less than 0.2 per cent (mono) and 0.3 per cent (stereo). Violated in the code: with no free buffer a mono sound is heard on the left only; the vector code for ARM places the centre to the right, and frames outside of its groups of four are placed otherwise than those inside. |
| C136 | The JACK client passes on all MIDI messages | partial | `Clients/Props` | Every valid message is decoded and every frame of every cycle is written. Violated in the code: when another thread holds the lock all messages of the cycle are dropped (a note can hang); an event with too few bytes is read beyond its end. |
| C137 | A MIDI file is rendered frame by frame | partial | `Clients/Props`, `Sequencer/Props` | Exact times; one track with delays in seconds, or several tracks with ticks and tempos (C150); messages but pressures. Violated in the code: pressure messages are ignored; with --use-eot the sound ends with the block of the last event, not at the end of the track; blocks of 0 frames never end; a silent block cuts off what follows; a sound that never decays is rendered for ever. |
| C138 | Blocks agree with the single calls of the listener | partial | `Parser/Blocks` | Blocks and names hold for every text. The warning is missing for base64data outside of all headers (orphan_data_violated). The opcodes after a header that is spelled wrongly go to the block before (wrong_header_violated). |
| C139 | The beat number misses no beat | partial | `BeatClock/Number` | Exact rationals. Proved for positions that are not negative; before the start of the song the number rounds towards zero, and beat 0 is missed (negative_beat_violated). |
| C140 | The envelopes and LFOs of a note are its own | partial | `Sources/Alone`, `Sources/Props` | Proved for flex envelopes and LFOs, for ADSR envelopes as long as no release is cancelled. False for an ADSR envelope whose release is cancelled: it goes on with the slope an earlier note left. Exact arithmetic; the numbers an LFO draws belong to its description. |
| C141 | Modulations are exactly those the opcodes ask for | partial | `Connections/Matrix`, `Connections/Props`, `Connections/Setup`, `Connections/Values` | Proved for every list of effects of opcodes; the table from opcode names to effects is the subject of C145. Fails for numbers above 256 (numbers_violated): they are kept in 8 bits, so a modulation of filter 257 acts on filter 1. |
| C142 | Random variations stay within their settings and use them evenly | partial | `Random/Props` | With binary32 rounding. The distributions of the standard library (lorand/hirand, offset_random, sample-and-hold LFO) are not modelled, nor settings below 2^-90. Violated: the noises of neighbouring gnoise voices share one of their four summands, a frame apart. |
| C143 | Shaped stages of flexible envelopes | proved | `Shapes/Props` | Over real numbers: the rounding of float and of std::pow is not modelled. The map of shapes is modelled with keys compared as real numbers (no NaN). |
| C144 | Numbers with a fraction in opcode values are read as written | partial | `Numbers/Booleans`, `Numbers/Props` | Over the exact number: rounding to float and overflow to infinity are not modelled. absl::SimpleAtof is modelled by its documentation for texts without white space. letter_e_violated: 2em is not read although 2m is 2. Also whole numbers and on/off values. |
| C145 | Modulation opcodes act on the modulation their name tells | partial | `Modulations/More`, `Modulations/Props`, `Modulations/Region`, `Modulations/Stages` | Proved for numbers 1 to 256. Violated: numbers over 256 wrap around, and egK_freq_lfoN is ignored when it comes before the opcodes of an LFO with number N-1 or more. Opcodes are recognised by their letters, not by the hash of them. Old spellings are the subject of C78. |
| C146 | Limits of polyphony groups | partial | `Loader/Limits` | group_limits gives the limit of every group after every load. Violated: a region with polyphony=256 does not lift an earlier limit, polyphony on a region without group limits nothing, group numbers equal modulo 2^32 are one group. |
| C147 | The keys, key-switches and controllers reported in use are those of the instrument | partial | `Slots/Props` | Key and key-switch slots: exact for every file that loads. Controllers: exact for all but the per-voice controllers (131 to 137, 140, 141), and from the text of an opcode with a controller in its name. Violated: a region with hikey=-1, which no key starts, still reports its keys; modulations by per-voice controllers are not reported. Missing: the controllers that regions use otherwise are given as a function of the region, not read from its tables. |
| C148 | The controllers reported as changed are those that were sent | partial | `Slots/Changed` | The two sets are exact after any history. That no change goes unreported holds for controllers below 128 without a reset in the block; violated by a reset of all controllers (121), by values set with the message /cc&/value, and for the controllers that notes set. |
| C149 | The exported document of names is well-formed XML and tells each named controller and key | partial | `Names/Props` | Proved for all names made of characters that XML allows, with a reader of XML written from the recommendation. Violated by the code: a key that has a name and is a named key-switch is listed twice with different names; a name with a control character makes the document ill-formed; label_cc512 makes the export write outside of its bit array. Not modelled: encoding (bytes are taken as characters), the buffer of the writer. |
| C150 | The tracks of a MIDI file are played together in time | partial | `Sequencer/Props` | Exact times; tempos above 0; messages but pressures (see C137). Violated in the code: an event after the end of its track is played, and a tempo there takes effect for the other tracks. Reading the file is C151. Not modelled: files of format 2. |
| C151 | MIDI files are read as they were written | partial | `MidiFile/Props`, `MidiFile/Repairs` | Proved for all files of the standard without system messages in parts, from the bytes of the file to the calls of the synthesizer (formats 0 and 1, no pressure messages; see C137, C150), and reading ends for all bytes. Files cut off inside the events of a track are read up to the cut. Loosely written files (bytes around the header, wrong lengths of tracks, repeated ends, events after the end, system messages in parts or several in one, tracks that break off in a time) are read as far as they can be. The code violates the property for system messages in parts, whose times are lost, so that what follows comes too early; for several system messages in one, whose time counts several times, so that what follows comes too late; a file cut off in the length of a track is refused as a whole; and a wrong length that leads to the end of the file or to another track hides tracks. |
| C152 | A multi-channel audio buffer is a table of samples with silence around it | partial | `AudioBuffer/Props` | Proved for all histories in which the buffer is made shorter only when no space is kept after its frames and memory is granted. The code violates the rest: cutting a buffer with space after the frames leaves old samples there, which come back when it grows; a failed cut leaves a channel shorter than its span; a failed growth leaves the channel's end beyond the frames; a moved-from buffer still counts channels. |
| C153 | C++ objects and C references share a synthesizer safely | proved | `Handles/Props` | Counts are numbers without limit and calls come one after another (C111 has the interleavings of the C interface). |
| C154 | No request for a sample gets lost between the notes and the loader | partial | `Requests/Props` | Proved for any number of threads and any capacity, at the level of the single atomic operations of the queue, with sequentially consistent memory and counters that do not wrap. The order holds when one thread makes the requests; with two threads order_violated shows requests taken out of order when one is held up in the middle of a request while the queue goes around once. |
| C155 | Every background job is run | proved | `Workers/Props` | Any number of threads. Sections under the mutex are single steps, waking and spurious wakeups are separate steps; a job is a number whose running ends some time. That a thread which can go on does go on is left to the system. |
| C156 | Synthesizers share their loading threads safely | partial | `Workers/Sharing` | Sharing is proved for every interleaving, a read during an assignment giving the old value. The code does have such reads: the first look at the weak pointer is made without the mutex, so creating two synthesizers at the same time is a data race (creation_race_violated); the second look is safe (locked_read_safe). |
| C157 | The beginning of every sample is in memory | partial | `Preload/Props` | Proved for every history: only the samples in use are in memory, enough of each right after every load, and what counts as complete is. With later changes of the preload size there is enough when another instrument was loaded last, or when the size is never lowered; reload_violated shows that after a reload with a greater offset too little is kept. Further violations: the greatest preload size wraps around, the completeness of samples is forgotten when the table of files grows, and an empty sample in RAM mode asks for 2^32-1 frames at a reload. Offsets below 2^31 and preload sizes up to 2^31; files are readable and do not change. |
| C158 | Embedded samples are what is heard | partial | `Preload/Embedded` | Proved after loading another instrument, and over any edits of a file whose embedded samples stay the same, for embedded samples of one or two channels played forwards. Violations: an edited embedded sample keeps its old sound at a reload, a removed one still sounds and hides a file of its name, a region playing an embedded sample backwards is dropped, and one with three channels is undefined behaviour. Files do not change; oscillators and silent samples are left out. |
| C159 | A controller starts exactly the regions it should | partial | `Engine/ControllerTrigger`, `Engine/Turns` | For every history without a reset of all controllers, at the turn of each region without sw_up/sw_down and tempo conditions. For controllers below 128 and regions whose random range admits every draw the turns are counted from the calls (turns_counted_partial, cc_triggers_calls_partial); otherwise the number of earlier turns is that of the state. |

## Where the code breaks a property

Each line is a theorem: a concrete input of the model on which the property fails, evaluated by the kernel (or proved).

* C01 `Verif.Range.range_shrink_violated`: Full statement that fails: shrinking with a disjoint interval leaves `low > high` even though the range is of the self-checking kind (which still reports itself valid).
* C04 `Verif.Base64.base64_trailing_space_violated`: The full claim fails: "TQ==" followed by a line break decodes to nothing although the same text without the line break decodes to `M`.
* C05 `Verif.Osc.osc_double_violated`: **C05 violated for doubles.** Whatever the floating point formats are, since `appendDouble` takes a `float`, there is a double that is decoded as another one.
* C07 `Verif.Osc.osc_decode_blob_violated`: **C07 violated.** A twelve byte message is accepted with a blob argument of 4294967293 bytes starting at its end.
* C07 `Verif.Osc.osc_decode_huge_violated`: **C07 violated on huge inputs.** A signature of 2^29 tags makes the size of the argument array wrap to 0: with no room at all for arguments, the decoder writes the first of them outside of the buffer.
* C10 `Verif.Midi.midi_value_at_violated`: **C10 violated.** A controller at 0 that receives 1 at frame 10 already reads 1 at frame 5.
* C11 `Verif.Midi.midi_active_violated`: **C11 violated.** Pressing a key twice (two controllers merged on one channel, say) and releasing it once leaves an active note although no key is down; a stray note-off makes the engine forget a key that is down.
* C12 `Verif.Engine.reset_bend_violated`: C12 fails after a reset of all controllers: the bend is back at zero, but the region for bends above one half still counts its condition as satisfied (Synth.cpp:2120-2138 does not tell the layers).
* C12 `Verif.Engine.tempo_condition_violated`: C12 fails for tempo conditions: at two beats per second (120 beats per minute) a region for 100 to 140 beats per minute does not trigger, and one for 20 to 40 does: the condition is evaluated on 60 divided by the beats per second (Synth.cpp:864, Layer.cpp:209-213).
* C12 `Verif.Engine.note_controller_violated`: C12 fails for controllers set by notes: controller 131 is the velocity of the last note-on, but a region with a condition on it never learns (only `performHdcc` tells the layers).
* C12 `Verif.Engine.double_press_violated`: C12 fails when a key is pressed twice before it is released: no key is down, but the region for the first key is not triggered by the next one (it counts messages, MidiState.cpp:42 and 59-60).
* C14 `Verif.Engine.key_switch_down_violated`: C14 fails for `sw_down`: key 36 is held down throughout, but once its voice has been choked by key 48 the region that needs key 36 to be down no longer triggers (the note-off of the choke also changes the key-switches).
* C15 `Verif.Engine.sustain_alone_violated`: C15 fails for a region with `sostenuto_sw=off`: the sustain pedal pressed after the key does not hold the voice ...
* C15 `Verif.Engine.hanging_voice_violated`: ... and a voice started with the pedal down never stops: key up and all pedals up, it is not released.
* C16 `Verif.Engine.reset_lift_violated`: C16 fails when CC 121 lifts the pedal: the pedal of the region is up, but the release is neither played nor forgotten.
* C16 `Verif.Engine.sostenuto_release_violated`: C16 fails with the sostenuto pedal: lifting it plays the release of a key that is still held, which is played again when the key comes up.
* C16 `Verif.Engine.sound_off_release_violated`: C16 fails after all sound off: the waiting releases survive it and are played at the next lift of the pedal.
* C18 `Verif.Engine.polyphony_zero_violated`: C18 fails for a limit of zero: the check turns voices off but never refuses a start.
* C20 `Verif.Engine.sisters_split_violated`: Violated: with a polyphony of one (five voices) the sixth region takes the voice of the first one while the note is started. The voice that starts is then alone, and the voices started by the same note do not reach it.
* C21 `Verif.Playback.count_streaming_violated`: C21 is violated by a region that repeats its sample while it is still being loaded: with 8192 of 100000 frames in memory, the first repetition starts about 91800 frames before the sample.
* C21 `Verif.Playback.count_offset_violated`: C21 is violated by a region that repeats its sample and starts after its end: each repetition moves further beyond the end of the sample.
* C21 `Verif.Playback.count_fast_violated`: C21 is violated by a region that repeats a short sample at a high speed.
* C21 `Verif.Playback.crossfade_violated`: C21 is violated by a loop with a count and a crossfade, in a region whose end is moved before its loop by a controller: when the count is reached the frames to fade in lie before the sample.
* C23 `Verif.BufferPool.all_returned_violated`: Assigning over a non-empty holder loses its buffer: with all holders gone it stays unavailable. (`SpanHolder`'s move assignment, BufferPool.h:35-41, does not give the old buffer back.)
* C25 `Verif.Parser.expand_terminates_violated`: **C25.** A variable defined as itself is never expanded: no number of passes is enough.
* C25 `Verif.Parser.parse_terminates_violated`: **C25.** The parser does not finish on every text: after `#define $a $a`, the opcode name `$a` is expanded for ever.
* C26 `Verif.Parser.print_parsed_violated`: **C26.** Without the condition on the byte 255, a document parsed from a string is not the one that was written: the value is cut at this byte.
* C27 `Verif.Parser.expand_local_violated`: **C27**, violated for values that end in an unfinished reference: with `#define $a $b` and `#define $bc 7`, the text `$ac` is the variable `$a` and the letter `c`, and `$b` is not defined; but the letter is taken for the end of the name, and the text becomes `7`.
* C29 `Verif.Opcode.large_number_violated`: C29 fails for numbers above 65535: the parameter is truncated ...
* C29 `Verif.Opcode.huge_number_violated`: ... and numbers of more than 32 bits are dropped with their mark: this is taken for another opcode, `cutoff`.
* C30 `Verif.Opcode.enforced_bound_not_normalized_violated`: C30 for a bounded opcode with normalization fails: the enforced bound is not normalized, so that a percentage (kept as a fraction) of 150 with maximum 100 would be kept as 100, whereas 100 is kept as 1. No declared opcode combines the two.
* C31 `Verif.Opcode.note_name_violated`: C31 fails: an empty value of a key opcode (`key=`) and large octaves are undefined behaviour.
* C34 `Verif.BeatClock.clock_block_violated`: C34 fails in the synth: the events are given before the cycle begins, so that an event whose delay exceeds the previous block advances the clock for frames that are counted again: the time after blocks of 64 and 128 frames is that of more than 192 frames, and in the first block of 64 frames, an event with delay 32 does the same.
* C34 `Verif.BeatClock.position_and_start_violated`: C34 fails: a position given at the frame where the clock starts is one frame late.
* C34 `Verif.BeatClock.late_event_violated`: A delay beyond the buffers writes outside of them.
* C35 `Verif.Adsr.level_in_range_violated`: C35 fails for the lower bound of the level: with a pending note-off a decayed envelope goes below 0 (at 11025 Hz, where the transition time is not a whole number of frames).
* C35 `Verif.Adsr.split_violated`: C35 fails for the splitting into blocks: a percussive envelope gives different levels.
* C35 `Verif.Adsr.dynamic_delay_violated`: C35 fails: with a dynamic envelope, a delay of more than 16 frames does not end (here 20 frames of delay, 1600 frames asked for), so that the note is never heard and a note-off does not release it.
* C35 `Verif.Adsr.dynamic_hold_violated`: C35 fails: with a dynamic envelope, a hold stage of more than 16 frames does not end (here 20 frames of hold of a percussive envelope, 1600 frames asked for).
* C35 `Verif.Adsr.cancelled_delay_violated`: C35 fails: an envelope whose release is cancelled during the delay stage does not end after a later release.
* C36 `Verif.FlexEG.release_time_violated`: A release does not come at the frame asked for if the trigger delay is not over: with a note-on at frame 4 of a block and its note-off at frame 6, the envelope that should leave its sustain level (1) at frame 6 leaves it at frame 10 (the trigger delay is counted twice).
* C36 `Verif.FlexEG.free_running_split_violated`: With free running the envelope depends on the sizes of the blocks: it does not stop at the sustain point if a block ends there, and does if the block goes on.
* C37 `Verif.ModMatrix.generated_once_violated`: C37 does not extend to cyclic graphs: asking an LFO whose frequency target it modulates itself for another target it is connected to generates it twice in the block, because a source is marked ready only after its generator has returned.
* C37 `Verif.ModMatrix.shared_pressure_violated`: C37 does not hold with controller 130: the second voice of a block gets the pressure of the key of the first one.
* C38 `Verif.ModMatrix.depth_independence_violated`: C38 fails: the first and the second LFO of a region acting on its pitch (`lfo1_pitch_oncc1`, `lfo2_pitch_oncc2`) have the same depth control, because the key carries the number of the target instead of the number of the LFO; and likewise for every two LFOs, and every parameter they can act on.
* C39 `Verif.Smoother.smoother_split_violated`: Below 16 frames of smoothing the outputs depend on how the frames are split into blocks.
* C40 `Verif.Envelope.quantized_through_events_violated`: A quantized envelope does not always pass through the quantized value of an event at its frame: the steps of equal length may end before the event, and the next change starts from there.
* C41 `Verif.Crossfade.value_fade_in_violated`: For controller or velocity values between two of the 128 steps the fade-in overshoots: with `xfin_locc=10 xfin_hicc=11` and the value 11.9/127 the gain is 1.9, and it falls back to 1 at 12/127.
* C41 `Verif.Crossfade.key_fade_out_violated`: A fade-out with equal bounds never fades: keys far above are at full gain.
* C42 `Verif.Lfo.step_valid_float_violated`: In `float` the wrapped phase can be 1, and then the step read lies after the last one: a tiny negative phase (such as a negative phase modulation gives) wraps to 1.
* C42 `Verif.Lfo.lfo_split_violated`: With a modulation that varies, the frame at which the delay ends matters: in the block where it ends, the modulation is read from the beginning of the block.
* C42 `Verif.Lfo.lfo_beats_violated`: With a delay (a note in the middle of a block, `lfoN_delay`) an LFO that follows the beats is late until the end of the block: it reads the positions from the beginning of the block. Here the host is at beat 1/8 in the second frame; with the block cut before this frame the LFO is where it should be.
* C43 `Verif.Power.power_long_block_violated`: A block longer than the configured size leaves the temporary buffer.
* C44 `Verif.AudioReader.reverse_readers_agree_violated`: When a file is truncated the two backwards readers disagree: the one for fast-seeking formats gives nothing at all, the other the part that could be decoded.
* C45 `Verif.Metadata.memory_agrees_with_file_violated`: The converse fails: a file that ends within its last chunk — even if only the pad byte is missing — is read from disk but refused from memory, with all its chunks.
* C45 `Verif.Metadata.aiff_extraction_violated`: A marker with an empty name (which is what a marker without a label looks like) makes the memory source divide by zero, and the file source drop the loop.
* C47 `Verif.Loader.refused_then_ignored_violated`: C47 fails: an opcode refused by a region because the LFO that it names does not exist there is ignored in all the later regions, even in one where it is understood. The second region alone has the modulation; after the first it has not.
* C48 `Verif.Loader.controller_512_violated`: C48 fails: controller 512 is stored by each of the seven opcodes, and collecting the controllers of the region then writes outside of the table.
* C48 `Verif.Loader.set_cc_512_violated`: ... as does a default value for controller 512; 513 is refused.
* C48 `Verif.Loader.huge_lfo_number_violated`: Opcodes with a number for an LFO or an envelope: the number may be lost (more than 32 bits), and the first of no parameters is read.
* C51 `Verif.Engine.same_key_violated`: The literal statement of C51 fails for repeated notes: the second note-on on the same key is another event, but the voice of the first one, whose `off_by` is the group, plays on.
* C52 `Verif.Loader.default_switch_violated`: C52 fails: the default key-switch leaves the keyboard (it is an index into tables of 128 keys at the next key-switch note, Synth.cpp:1356-1357), while the key-switches themselves are kept on it.
* C52 `Verif.Loader.offset_overflow_violated`: C52 fails: the sum of the offsets overflows.
* C52 `Verif.Loader.switch_range_violated`: C52: the range of key-switches `sw_lolast`-`sw_hilast` is not transposed, while `sw_last` is.
* C52 `Verif.Loader.empty_range_violated`: C52: a region that no key plays (`lokey` above `hikey`) is played by a key once transposed to the end of the keyboard.
* C54 `Verif.Midi.midi_duration_rate_violated`: So the duration is too short: the 100 frames before the change are lost.
* C56 `Verif.Engine.envelope_stealer_zero_violated`: C56 needs `Sane`: with the envelope stealer, a limit of zero takes the front of an empty list.
* C57 `Verif.Engine.voice_age_violated`: C57 fails in the first block: a voice triggered at frame 0 of a block of 256 frames has age 0 afterwards, not 256.
* C58 `Verif.Engine.choked_voice_revived_violated`: C58 fails when the sustain pedal cancels releases: a voice choked by an off group goes back to full level when the pedal is pressed, while the engine still counts it as turned off.
* C61 `Verif.AudioReader.ram_switch_violated`: The last frame is lost when RAM loading is switched on after the file was preloaded, although the data is then flagged as complete.
* C62 `Verif.FilePool.Clear.clear_violated`: The code's clearing can destroy an entry while a job uses it: a request is still queued when the wait returns, the dispatcher and the job get past their tests before the regions are destroyed, and the job uses the entry after the pool is cleared.
* C62 `Verif.FilePool.Clear.wait_violated`: The wait of freewheeling rendering (Synth.cpp:1117-1118) has the same gap: it returns although a requested file has not even begun to load.
* C64 `Verif.Messages.controller_index_violated`: **C64.** The request `/cc512/value` reads past the table of controller values.
* C64 `Verif.Messages.voice_index_violated`: **C64.** The request `/voice4294967295/trigger_value` reads outside the voices.
* C64 `Verif.Messages.point_index_violated`: **C64.** Point 4294967295 is the hidden first point.
* C65 `Verif.Messages.room_violated`: **C65.** A filter added by message has no room in the voices: starting the next voice for the region writes outside its filters.
* C66 `Verif.Playback.loop_count_violated`: C66 is violated: rendered as one block, the loop is played twice as asked; when a block happens to begin where the loop ends, it is played a third time.
* C69 `Verif.Simd.multiplyAdd_misaligned_violated`: `multiplyAdd` with aligned input and output but gains elsewhere: the vector load of the gains faults.
* C69 `Verif.Simd.multiplyMul_misaligned_violated`: The same for `multiplyMul`.
* C69 `Verif.Simd.divide_misaligned_violated`: The same for the divisors of `divide`.
* C69 `Verif.Simd.multiplicativeRamp_zero_violated`: With a zero step the scalar version gives `start, 0, 0, ...`; the vectorized one divides by the step.
* C69 `Verif.Simd.diff_in_place_violated`: In place the two versions of `diff` give different numbers.
* C70 `Verif.Interp.bspline_through_violated`: The B-spline does not: at a sample it gives an average with the neighbours.
* C70 `Verif.Interp.sinc_table_violated`: Entry 4 does not hold the function at its place, and the entry after the table is not written.
* C70 `Verif.Interp.sinc_lookup_violated`: The lookup is off: already at the centre each of the interpolators uses a point left of it, so even a straight line is not read exactly, and a sample is not reproduced at fraction 0.
* C71 `Verif.Pan.pan_power_violated`: Exactly between two entries both channels round the same way, and some power is lost.
* C74 `Verif.Engine.timer_delay_violated`: The property fails when the latest start is delayed (`delay`): until it sounds, the unsigned time since then wraps and counts as more than a day. With a start 1 s ahead, a region that asks for at least 100 s since the latest start plays at once.
* C75 `Verif.Region.offset_random_violated`: `offset_random=-1`, which the parser accepts, asks the standard library for a number out of an empty interval.
* C75 `Verif.Region.preload_negative_violated`: `offset_cc1=100000 offset_cc2=-100000`: only the first 8192 frames are read in advance, although a note with controller 1 up starts at frame 100000, outside of the memory.
* C75 `Verif.Region.preload_wrap_violated`: With the largest preload size and `offset=1` nothing is read in advance: the sum is made in 32 bits.
* C76 `Verif.Region.velocity_gain_violated`: `amp_veltrack=200`, which the parser accepts: soft notes have a negative gain, that is an inverted signal.
* C77 `Verif.Mixer.output_message_violated`: C77 does not hold for every use of the API: the output of a region set to 5 by a message while notes play is outside of the table of buses (`/region&/output`, SynthMessaging.cpp, changes the region and nothing else).
* C77 `Verif.Mixer.output_message_silent_violated`: With an output one above those of the instrument the bus exists, but is not mixed: the voice is lost, on any pair.
* C77 `Verif.Mixer.odd_channels_violated`: One channel, or an odd number with several outputs, is not enough: a channel that does not exist is used.
* C78 `Verif.Cleanup.group_header_violated`: C78 does not hold in the header of a group: there `polyphony_group` is not recognised as `group`, although the regions below take their group from it. With `polyphony_group=3 polyphony=2` the group gets no limit of its own; with `group=3 polyphony=2` it does.
* C79 `Verif.Tuning.scl_tail_violated`: Without its restriction the claim is false: the format says that text after a tone is not part of it, but a ratio followed by a text with a period is read as a number of cents, and a whole number followed by a text with a slash makes the file invalid.
* C79 `Verif.Tuning.negative_ratio_violated`: "-3/2" is taken for a tone, and the frequencies of the keys are then no numbers.
* C79 `Verif.Tuning.zero_frequency_violated`: The reference frequency may be set to 0: the key numbers of the voices are then no numbers.
* C79 `Verif.Tuning.root_key_violated`: The largest root keys that the call takes are not defined.
* C79 `Verif.Tuning.count_violated`: A number of tones that does not fit an `int` is not defined either.
* C79 `Verif.Tuning.reload_violated`: After a file could not be read, it is never reported as changed, even if it is repaired.
* C80 `Verif.Stretch.factor_mono_violated`: The full claim is false: below key 0 the factor goes down towards the next key number and then jumps back up, so that a higher key has a smaller factor.
* C80 `Verif.Stretch.knob_mono_violated`: The knob is not monotonic: at the highest key position 1 stretches less than position 0.5.
* C80 `Verif.Stretch.stretch_undefined_violated`: With stretch tuning and a reference frequency of 0, starting a voice is not defined.
* C81 `Verif.Controller.still_violated`: **C81, rest.** A pitch wheel at rest at its lowest position, smoothed over a millisecond: the source starts from 0, because the value that smoothing starts from goes through the curve while the values themselves do not.
* C81 `Verif.Controller.voices_independent_violated`: **C81, voices.** With smoothing the voices of a region are not independent: the velocity of a voice started with velocity 1 is 1 as long as it plays alone, and jumps down to about 1/4 as soon as a second voice of the region, of velocity 1/4, starts, because the smoother belongs to the source and not to the voice.
* C81 `Verif.Controller.steps_violated`: **C81, steps.** For the controllers of voices the step is not scaled: with a depth of 1200 cents and steps of 100 cents a velocity of 1/4 adds nothing, where the same depth and steps on an ordinary controller of the same value give 300 cents. And with a negative depth there are no steps at all.
* C81 `Verif.Controller.sharing_violated`: **C81, sharing.** The pressure of the key is shared by the voices though it belongs to the key of each: two voices, two values, one source.
* C82 `Verif.Loader.waits_violated`: **C82 fails** when a `sw_down` that is not a key follows a `sw_last`: the region needs key 36 and does not wait for it.
* C83 `Verif.Effects.chained_disto_violated`: C83 is violated: a gain of 1 before the distortion changes its sound. By itself it makes 5/8 of a sample at 1, half of which is the dry signal; after another effect the dry signal is replaced by the wet one, and it makes 1/4.
* C84 `Verif.Effects.linked_cut_violated`: C84 is violated by a linked gate: two frames played at once or one by one come out differently.
* C86 `Verif.Effects.width_opcode_violated`: C86 is violated: whatever the width asked for by the opcode, from -100 % to 100 %, the effect mixes more than half of each channel into both. The value is divided by 100 when it is read and once more when it is used.
* C87 `Verif.Effects.limiter_after_clear_violated`: C87 is violated by the limiter: after a sample, `clear` and silence, the resamplers go on sounding.
* C87 `Verif.Effects.compressor_after_clear_violated`: C87 is violated by the compressor in the same way, and so by the gate.
* C89 `Verif.Effects.limiter_quiet_violated`: C89 is violated: the first samples after the start are attenuated however quiet they are.
* C89 `Verif.Effects.limiter_ceiling_violated`: C89 is violated: there is no ceiling; some signal comes out over any bound, whatever the (nonzero) attack.
* C90 `Verif.Effects.linked_detector_violated`: C90 is violated: a linked gate stays shut while the right channel is loud, and stays open after a short sound of it.
* C92 `Verif.Effects.chained_neutral_violated`: C92 is violated: after another effect the distortion with no wet part plays nothing but its wet part, here a fourth.
* C94 `Verif.PerVoice.filter_rate_violated`: C94 is violated: set the engine to 44.1 kHz, load an instrument with one filter, and every filter runs as if the rate were 48 kHz; changing the number of voices does not mend it.
* C95 `Verif.Filter.second_order_stable_violated`: C95 is violated: at a sample rate of 24 kHz a two-pole low-pass at 18 kHz, which the engine accepts, turns a single click into an unbounded sound.
* C97 `Verif.Filter.flat_band_violated`: C97 is violated: a peak filter whose gain stays at 0 dB but whose frequency moves between two blocks does not pass the sound unchanged.
* C98 `Verif.Filter.cut_violated`: C98 is violated for moving controls: the same sound under the same control curve comes out differently when the block is cut after one frame, because the controls of frame 1 are then looked at.
* C100 `Verif.Filter.first_order_stable_violated`: C100 is violated: at 48 kHz an all-pass and a band-reject at 20 kHz, ordinary settings well below half the sample rate, turn a single click into an unbounded sound.
* C101 `Verif.Filter.sv_notch_violated`: C101 is violated for the band-reject: at 48 kHz and 12 kHz a sine at the filter's frequency is not removed: it comes out with its amplitude unchanged.
* C101 `Verif.Filter.sv_lowpass_violated`: C101 is violated for the low-pass: at 48 kHz and 12 kHz a sine at the cutoff vanishes, and the highest frequency, which a low-pass should remove, passes at full amplitude.
* C102 `Verif.PerVoice.add_filter_violated`: C102 is violated by `/region0/add_filter`: the count of filters per voice is raised to the number of *envelopes* of the region, so the next note of that region sets up a filter its voice does not have.
* C102 `Verif.PerVoice.add_eq_violated`: C102 is violated by `/region0/add_eq` in the same way.
* C102 `Verif.PerVoice.edit_while_playing_violated`: C102 is violated even for other regions: while a voice with an envelope plays, adding a filter to a different region replaces the voice's envelopes by ones without description, and the next block follows a null pointer.
* C104 `Verif.Effects.decimator_silent_violated`: C104 is violated: at 48 kHz there is a depth at which the clock ticks on every other frame exactly; all ticks are lost, and the effect is silent whatever is played.
* C105 `Verif.Reload.image_controls_violated`: C105 is violated by the image of controls: an instrument without one shows that of the instrument before.
* C105 `Verif.Reload.sustain_hint_violated`: C105 is violated by `hint_sustain_cancels_release`: it stays for the following instruments.
* C105 `Verif.Reload.controller_values_violated`: C105 is violated by the values of controllers: what `set_cc` of an instrument sets, though nobody moved a controller, is what the next instrument starts from, against its own default.
* C105 `Verif.Reload.reload_names_violated`: C105 is violated when a file is loaded again: the controllers 7, 10 and 11 lose their names.
* C105 `Verif.Reload.reload_defaults_violated`: C105 is violated when a file is edited and loaded again: a default that was taken out of the file stays.
* C106 `Verif.Reload.power_violated`: C106 is violated: after a change of the number of voices nothing is measured any more, all powers read zero, and the stealing algorithm goes on comparing them.
* C107 `Verif.Wavetable.huge_frequency_violated`: C107 is violated beyond the range of integers: a frame that advances by `2 ^ 31` periods is undefined. Pitches are not limited, and frequency modulation multiplies them by up to 100.
* C109 `Verif.Wavetable.reference_violated`: C109 is violated exactly at half the reference rate: the index of the table is interpolated, and the frequencies just above the border of two tables still read the lower one.
* C109 `Verif.Wavetable.negative_violated`: C109 is violated for negative frequencies, which frequency modulation makes: they read the table for the lowest notes, with all its harmonics; at -10 kHz the 500th of them would sound at 5 MHz.
* C109 `Verif.Wavetable.detune_violated`: C109 is violated by detuned oscillators: the table is chosen without the detuning. With a note at 20 Hz and an oscillator that is detuned to 2 kHz (`oscillator_detune` goes up to 12000 cents), harmonic 500 would sound at 1 MHz.
* C113 `Verif.Api.label_text_violated`: **C113 is violated.** For every label of every instrument, the pointer that the getter of label texts returns points to memory that is already released: reading the text is undefined behaviour.
* C114 `Verif.Import.header_name_violated`: **C114 is violated** for names with characters that mean something in instrument files: opening the recording `take <2>.wav` makes an instrument whose region plays a file `take`.
* C114 `Verif.Import.opcode_name_violated`: ... a part of the name of `a key=40.wav` becomes an opcode ...
* C114 `Verif.Import.sample_name_violated`: ... and a file `*sine.wav`, ` x.wav`, `a\b.wav` is not looked for under its name.
* C115 `Verif.Import.group_range_violated`: **C115, violated.** The range of a group reaches its samples only when they give no root note: the same group with and without a root note in its sample.
* C115 `Verif.Import.round_robin_violated`: **C115, violated.** Round robins do not work: the importer writes the position of a sample in the sequence and never its length, so that the length stays 1, and a region with a later position never plays.
* C116 `Verif.Edit.widened_keys_violated`: **Widening does nothing.** A region loaded for keys 60 to 64 and widened to 50 to 70 should answer key 55; the engine never lets it.
* C116 `Verif.Edit.new_condition_violated`: **A condition added by message is ignored.** The region is told to play only while controller 20 is in the upper half; the controller is then moved to 0, and the region still answers.
* C116 `Verif.Edit.moved_output_violated`: **Moving a region to another output by message reads past the table of outputs.** In an instrument with one output, a region moved to output 5 makes the next block access output 5, which does not exist.
* C116 `Verif.Edit.moved_output_silent_violated`: **A region moved to the output just past the last one is silent.** The engine makes one output more than it mixes: the move is safe, but the voice never reaches the host.
* C116 `Verif.Edit.moved_output_overrun_violated`: **… until the block size is raised**: the buffers of that extra output are not resized, and the voice writes past their end.
* C117 `Verif.Strings.packs_violated`: **A pack that is not full is not a number.** If the number of strings is not a multiple of the number of lanes, everything after the first frame is not a number, for every sample rate, every set of strings and every input, silence included.
* C117 `Verif.Strings.strings_violated`: **C117, violated**: with 10 strings and 4 or 8 lanes, both channels are not a number from the second frame on, for every sample rate, every input and every amount, 0 included.
* C118 `Verif.Reverb.counter_violated`: VIOLATED: "the effect can run for ever". After 2^31 frames (12.4 hours at 48 kHz) the counter, an `int`, overflows, which has no defined result.
* C118 `Verif.Reverb.dry_violated`: VIOLATED: "with `reverb_dry=100` and `reverb_wet=0` the signal passes as it is". After a load, and after every change of sampling rate, it is faded in from nothing: the first frame is a thousand times too small.
* C118 `Verif.Reverb.predelay_violated`: VIOLATED: "`reverb_predelay` may be up to ten seconds". At 48 kHz a click is heard by the reverb no later than 65536 frames, or 1.4 seconds, after it, though the opcode asked for 480000 frames.
* C119 `Verif.Render.fade_start_violated`: C119 is violated when a controller moves in the block of the start: controller 1 is sent 0 for frame 97 and 1 for frame 98, and a voice that starts at frame 99 of the same block starts at a fifth of its gain; with the same messages a block earlier it starts at its full gain. The smoother is reset to the right value, but follows the controller from the first frame of the block on.
* C120 `Verif.Render.sample_clock_violated`: C120 is violated: the places read depend on the size of the blocks. In one block of 8 frames a voice reads the frames 0 to 7 of its sample. In two blocks of 4 frames it reads the last frame of the first block again, and in blocks of 2 frames with a delay of 4 frames it leaves out the first frame of the sample.
* C121 `Verif.Render.pitch_frame_violated`: C121 is violated in the block of the start: a voice that starts at frame 4 of a block plays a bend for frame 5 one frame after its start plus the delay, at frame 9; the frame 5 has no bend yet (200 cents are due). Nor does the pitch modulation arrive in time: what is due at frame 4 of the block comes at frame 8.
* C121 `Verif.Render.bend_step_violated`: C121 is violated at rest, for a region with bend steps and smoothing: the bend stands at 150 cents when the voice starts, which is 100 cents in steps of 100, but the voice starts near 150 cents and glides to 100.
* C122 `Verif.Adsr.release_late_violated`: C122 is violated: when the delay of an envelope ends exactly at the end of a block, a later release comes one frame late.
* C122 `Verif.Adsr.release_at_delay_violated`: C122 is violated: a note released exactly at the end of its delay is heard, with no attack even from full level.
* C123 `Verif.MidiValue.bend_low_violated`: C123 fails for bends at the low end: the wheel all the way down does not meet a range which ends there.
* C123 `Verif.MidiValue.bend_gap_violated`: C123 fails for high definition bends: between two numbers there are values which meet neither the range ending at the first nor the one starting at the second, although the setting asks for the gap to be filled (`kFillGap` counts for MIDI numbers only).
* C123 `Verif.MidiValue.fraction_violated`: C123 fails for upper bounds with a fraction: filling the gap adds a whole step, so that 64 meets `hivel=63.5`.
* C124 `Verif.MidiValue.percent_back_violated`: C124 fails for percentages to the last bit: `amplitude=15` is reported as 15.000001.
* C126 `Verif.VoiceFilter.cutoff_law_violated`: C126 is violated in every other case: when the cutoff before modulation passes 20 kHz and the modulation lowers it, the filter is set lower than the cents say.
* C128 `Verif.Drift.lfo_stops_violated`: C128 is violated for slow LFOs: below the sample rate times 2^-25 the phase never passes one half, however long the note.
* C129 `Verif.Generator.phase_message_violated`: C129 is violated by the message: a phase of 1000 is kept, and the first frame of the note reads outside of the tables.
* C129 `Verif.Generator.unison_centre_violated`: C129 is violated by even numbers: four oscillators detuned by 100 cents lie 6.25 cents too low on average.
* C130 `Verif.Memory.resize_wrap_violated`: C130 is violated for sizes within 30 of the largest: the size with its margins wraps and the buffer has no memory. Such sizes come from negative block sizes (`sfizz_set_samples_per_block` of -1 resizes the effect buses to 2^64 - 1).
* C131 `Verif.Render.block_size_violated`: C131 is violated: cut into blocks of two frames, the place is repeated at the third frame; in blocks of four it is at the fifth.
* C131 `Verif.Render.block_size_bend_violated`: C131 is violated when the bend moves: the wheel is led from the beginning of the block to its message, so a message at the frame 6 sounds from frame 1 on in a block of 8 frames, and from frame 5 on in blocks of 4.
* C132 `Verif.EgNote.dynamic_stage_violated`: **C132, a changing envelope.** With `ampeg_dynamic` the stages are read again every 16 frames of a block, and the controllers then have the value of the next message of the block, not the last one: here the attack read at frame 16 is that of the message at frame 40.
* C133 `Verif.FindSample.two_cases_violated`: **C133, violated.** With two directories that differ by case only, a sample that is in one of them is not found when the other one is tried: here the name of the directory is exact, and the file is in the other one.
* C134 `Verif.Aftertouch.reset_pressure_violated`: **C134, reset.** Violated: the message "reset all controllers" (121), which by its definition (MIDI RP-015) sets the pressure to 0, leaves it as it was.
* C135 `Verif.Pan.no_buffer_violated`: With no free buffer in the pool the stage does nothing: a mono sound, whose right channel is silent so far, is heard on the left, wherever it is panned to.
* C135 `Verif.Pan.neon_centre_violated`: In the vector code a sound panned to the centre is louder on the right.
* C135 `Verif.Pan.arm_steady_violated`: On ARM a steady sound with a steady setting does not stay steady: the frames left over after the groups of four are panned otherwise than those before.
* C136 `Verif.Clients.jack_locked_violated`: When the lock is held, the messages of the cycle are lost: the end of a note never reaches the synthesizer.
* C136 `Verif.Clients.jack_short_violated`: An event with too few bytes makes the JACK client read outside of it.
* C137 `Verif.Clients.render_pressure_violated`: The pressures of a MIDI file are ignored by the renderer, though the synthesizer would follow them.
* C137 `Verif.Clients.eot_violated`: With `--use-eot` the sound should last up to the end of the track, but it ends with the block of the last event before: here after one block of 1024 frames instead of ten seconds.
* C137 `Verif.Clients.zero_block_violated`: With blocks of no frames the renderer never ends, whatever the track.
* C137 `Verif.Clients.tail_violated`: So a sound that comes back after a block of silence is cut off, and one that goes on for ever is rendered for ever.
* C138 `Verif.Parser.orphan_data_violated`: C138 is violated for `base64data`: outside of all headers it is dropped without a warning.
* C138 `Verif.Parser.wrong_header_violated`: What follows a header that is spelled wrongly belongs to the block before.
* C139 `Verif.BeatClock.negative_beat_violated`: C139 is violated before the start of the song: from beat -1 to beat 1 there is no change of the number, so that the beat 0 is missed.
* C140 `Verif.Sources.cancelled_release_violated`: C140 does not hold for an ADSR envelope whose release is cancelled: the level after it depends on the note the voice played before. In a new voice the envelope stays at 1/2, in a used one it falls with the slope the earlier note left (`cancelRelease` goes to the sustain stage and does not set `transitionDelta`, which `reset` does not set either).
* C141 `Verif.Connections.numbers_violated`: C141 fails for large numbers: the number of a filter, an equalizer, an LFO or an envelope is kept in 8 bits, so what acts on the cutoff of filter 257 acts on that of filter 1 (and so on); the numbers from 1 to 256 are told apart.
* C142 `Verif.Random.gnoise_shared_violated`: **The noises of two voices are not independent**: of the four numbers that a frame of `*gnoise` adds up, the first one of a voice is the first one of the voice made before it, one frame later.
* C144 `Verif.Numbers.letter_e_violated`: **Text that begins with the letter e spoils the number before it**: the letter is taken for an exponent.
* C145 `Verif.Modulations.large_number_violated`: **Numbers over 256 violated**: `cutoff257_oncc1` modulates the cutoff of the first filter.
* C145 `Verif.Modulations.eg_freq_order_violated`: **Order of opcodes violated**: `eg1_freq_lfo3` is ignored when it comes before the opcodes of the third LFO, not when it comes after them.
* C146 `Verif.Loader.lift_violated`: **A limit of 256 violated**: `polyphony=256` on a later region does not lift the limit of its group.
* C146 `Verif.Loader.region_polyphony_violated`: **The limit of a region violated**: `polyphony` on a region without `group` limits nothing.
* C146 `Verif.Loader.group_wrap_violated`: **Large groups violated**: groups -1 and 4294967295 are the same group.
* C147 `Verif.Slots.keys_violated`: **Keys violated**: a region that no key starts (`hikey=-1`) puts all the keys from its `lokey` on in use.
* C147 `Verif.Slots.controllers_violated`: **Controllers violated**: a modulation by the velocity (controller 131) is not told.
* C148 `Verif.Slots.reset_violated`: **Reset violated**: a reset of all controllers (controller 121) puts controller 1 back, and only 121 is told to have changed.
* C148 `Verif.Slots.message_violated`: **Message violated**: a value set with the message `/cc&/value` is a change of the controller, and is not told.
* C148 `Verif.Slots.note_violated`: **Notes violated**: a note-on sets the controller 131 to its velocity, and no change is told.
* C149 `Verif.Names.two_names_violated`: C149: a key that is named and is a key-switch with a name too is told twice, with different names.
* C149 `Verif.Names.control_character_violated`: C149: a name with a control character, as a file may give it, makes a document that is not XML.
* C149 `Verif.Names.label_512_violated`: C149: `label_cc512` is accepted, and then the export reaches outside of the 512 controllers.
* C150 `Verif.Sequencer.after_end_violated`: Without the first hypothesis it fails. Here a tempo follows the end of the first track, as the reader of files permits; it takes effect before anything else, so that the note at tick 480 comes after one second instead of half a second. Then it is played itself, at a time that lies before.
* C151 `Verif.MidiFile.sysex_parts_violated`: The times between the parts are lost: all that follows in the track comes too early. Here a note that was written 300 ticks after the start is read at the start (the parts are those of the example of the standard).
* C151 `Verif.MidiFile.cut_length_violated`: But if the cut is in the length of a track, all of the file is refused.
* C151 `Verif.MidiFile.length_violated`: What is missing in `loose_read_partial`: a length, wrong by accident, that leads to the end of the file makes the reader skip a track.
* C151 `Verif.MidiFile.packed_violated`: The time before several sysex messages in one counts for each of them: what follows comes too late. Here a note written 10 ticks after the start is read at 20.
* C152 `Verif.AudioBuffer.cut_violated`: C152 is violated when frames are taken away from a buffer with space after the frames: the old samples stay there, are read by whoever looks past the end, and come back when the buffer grows again.
* C152 `Verif.AudioBuffer.failed_cut_violated`: C152 is violated when memory for one channel only is granted: a resize to fewer frames that fails has already cut the first channel, and the span of that channel, still of the old length, goes beyond its memory.
* C152 `Verif.AudioBuffer.failed_growth_violated`: C152 is violated for the ends of the channels when a resize to more frames fails: the first channel then has more samples between its begin and its end than the object has frames.
* C152 `Verif.AudioBuffer.moved_violated`: An object that was moved from still counts its channels, and reading one is undefined; `reset` makes it usable.
* C154 `Verif.Requests.order_violated`: With two threads, the requests of the second thread are taken in another order than it made them, if the first thread is held up in the middle of a request while the queue goes around once (here with two slots).
* C156 `Verif.Workers.Sharing.creation_race_violated`: Two threads that create their synthesizers at the same time: one reads the weak pointer while the other assigns it.
* C157 `Verif.Preload.reload_violated`: A sample of 1000 frames; the file is edited to start it at frame 900 and loaded again, then the preload size is lowered to 100: only 100 frames stay in memory, and the notes start in frames that are not there.
* C157 `Verif.Preload.greatest_size_violated`: With the greatest preload size the sum with the offset wraps around: nothing is in memory.
* C157 `Verif.Preload.forgotten_complete_violated`: An instrument that asks for its samples to be in memory in full: the first sample is, but does not count as such when the table of files has grown with the second, so that its notes read it from the disk once more.
* C157 `Verif.Preload.empty_sample_violated`: A file without frames, in an instrument that asks for RAM and is loaded again: the space asked for is that of 2^32 - 1 frames.
* C158 `Verif.Preload.Embedded.edited_violated`: An embedded sample is edited and the file is loaded again: the old sound is heard.
* C158 `Verif.Preload.Embedded.removed_violated`: An embedded sample is taken out of the file, which is loaded again: it still sounds, and hides a file of the same name.
* C158 `Verif.Preload.Embedded.backwards_violated`: A region that plays an embedded sample backwards is dropped.
* C158 `Verif.Preload.Embedded.channels_violated`: An embedded sample of three channels: undefined behaviour.

<!-- end of status -->
