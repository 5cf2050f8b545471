{"id": "C01", "title": "Value ranges stay well formed and membership is the interval", "statement": "After any sequence of constructing a range and setting its low/high bound (in any order, with any values), low <= high holds, the bound set last is the one requested, and a value is reported inside exactly when low <= v (< or <=) high. Shrinking a range is expected to keep it well formed as well.", "quantifier": "all sequences of range operations, all values of any linearly ordered type", "why_tests_cant": "Operation sequences and bound values are unbounded; unit tests try a handful of pairs.", "anchors": ["src/sfizz/Range.h: Range, UncheckedRange, setStart, setEnd, shrinkIfSmaller, expandTo, contains, containsWithEnd, clamp"]}
{"id": "C02", "title": "Controller map behaves as a finite map", "statement": "A CC map built by any sequence of `map[cc] = v`-style accesses returns, for every cc, the last value stored for it, the default value if none was stored; iteration order is strictly ascending by cc with no duplicates; `contains` is exactly `was stored`.", "quantifier": "all access histories, all cc numbers", "why_tests_cant": "Histories are unbounded; ordering bugs only show up for particular interleavings of insertions.", "anchors": ["src/sfizz/CCMap.h: CCMap::operator[], getWithDefault, contains, get"]}
{"id": "C03", "title": "Filter-removal keeps exactly the elements that should stay", "statement": "Removing elements satisfying a predicate from a vector with the swap-with-last strategy leaves a permutation of exactly the elements not satisfying it, terminates and reports the number removed.", "quantifier": "all vectors, all predicates", "why_tests_cant": "Errors appear only for particular positions of matching elements at the tail.", "anchors": ["src/sfizz/utility/SwapAndPop.h: swapAndPopFirst, swapAndPopAll"]}
{"id": "C04", "title": "Base64 embedded samples decode to the encoded bytes", "statement": "For every byte string, decoding its standard Base64 text (any whitespace inserted) returns exactly the bytes; text with a foreign character decodes to nothing.", "quantifier": "all byte strings, all whitespace insertions", "why_tests_cant": "Byte strings are unbounded; padding/remainder classes interact with content.", "anchors": ["src/sfizz/utility/Base64.h: decodeBase64", "src/sfizz/FilePool.cpp: loadFromRam", "src/sfizz/parser/ParserPrivate.cpp"]}
{"id": "C05", "title": "OSC messages round-trip", "statement": "For every message path, type signature and argument list, encoding a message and decoding the result yields the same path, signature and arguments, consuming exactly the encoded length.", "quantifier": "all paths/signatures/arguments (strings and blobs of any length)", "why_tests_cant": "Message space is infinite; padding depends on lengths mod 4.", "anchors": ["src/sfizz/Messaging.cpp: sfizz_prepare_message, sfizz_extract_message", "src/sfizz/Messaging.hpp"]}
{"id": "C06", "title": "OSC encoding reports the full size and never overruns the output buffer", "statement": "For every message and every buffer capacity, the encoder returns the same required size, writes at most `capacity` bytes, and what is written is a prefix of the complete message.", "quantifier": "all messages, all capacities", "why_tests_cant": "Capacity boundary x padding boundary combinations are unbounded.", "anchors": ["src/sfizz/Messaging.cpp: sfizz_prepare_message, OSCWriter"]}
{"id": "C07", "title": "OSC decoding never reads outside the received bytes", "statement": "For every byte string (also malformed) the decoder reads only inside it, and either rejects the message or returns arguments located inside it.", "quantifier": "all byte strings of any length", "why_tests_cant": "Adversarial inputs; the space of malformed packets is infinite.", "anchors": ["src/sfizz/Messaging.cpp: sfizz_extract_message, OSCReader, extractBlob, extractString"]}
{"id": "C08", "title": "MIDI event buffers stay time-ordered and keep the latest value per instant", "statement": "Whatever sequence of (delay, value) controller events is received in a block, the stored event list is strictly increasing in delay, holds exactly one value per received delay and that value is the last one received for this delay.", "quantifier": "all event sequences with arbitrary delays in any order", "why_tests_cant": "Event orders are unbounded and hosts are free to deliver out of order.", "anchors": ["src/sfizz/MidiState.cpp: insertEventInVector, ccEvent, pitchBendEvent, channelAftertouchEvent, polyAftertouchEvent"]}
{"id": "C09", "title": "Block end keeps only the final value of every controller", "statement": "At the end of every audio block each controller's event list is a single event at time 0 carrying the value the controller had at the end of the block, and querying the current value before and after the block boundary gives the same result.", "quantifier": "all histories of events and block boundaries", "why_tests_cant": "Requires reasoning over unbounded histories.", "anchors": ["src/sfizz/MidiState.cpp: flushEvents, advanceTime, getCCValue"]}
{"id": "C10", "title": "Controller value at a given frame is the most recent event at or before it", "statement": "Reading a controller's value at frame t of the block returns the value of the last event with delay <= t.", "quantifier": "all event lists, all frames", "why_tests_cant": "Boundary conditions (between events, equal to, before first) over unbounded lists.", "anchors": ["src/sfizz/MidiState.cpp: getCCValueAt, getPitchBend"]}
{"id": "C11", "title": "Held-note bookkeeping matches the key presses", "statement": "After any history of note-on/note-off messages in which each note-off follows its note-on, the engine's count of active notes equals the number of keys held, and a key is reported pressed iff its last message was a note-on.", "quantifier": "all note histories", "why_tests_cant": "Histories are unbounded; unbalanced messages are legal MIDI.", "anchors": ["src/sfizz/MidiState.cpp: noteOnEvent, noteOffEvent, allNotesOff, getActiveNotes, isNotePressed"]}
{"id": "C12", "title": "A region sounds only if all of its MIDI conditions hold", "statement": "A note-on triggers a region iff the key and velocity are in range and every key-switch, controller, pitch-bend, aftertouch, tempo, program, sequence and random condition holds for the last values received.", "quantifier": "all histories of MIDI events, all region settings", "why_tests_cant": "State depends on the entire history of events through several cached flags.", "anchors": ["src/sfizz/Layer.cpp: registerNoteOn, registerCC, registerPitchWheel, registerAftertouch, registerTempo, registerProgramChange, isSwitchedOn"]}
{"id": "C13", "title": "Round-robin regions cycle fairly", "statement": "For a region with seq_length=L and seq_position=P, among any sequence of matching note-ons the region triggers exactly on the P-th of every L of them.", "quantifier": "all L, P, all note-on histories", "why_tests_cant": "Unbounded history; counters.", "anchors": ["src/sfizz/Layer.cpp: registerNoteOn, initializeActivations"]}
{"id": "C14", "title": "Key-switches are exclusive and persistent", "statement": "At any time, the regions whose sw_last condition is satisfied are exactly those whose key/range holds the last key-switch note pressed (or the default switch before any press).", "quantifier": "all instruments' key-switch layouts, all note histories", "why_tests_cant": "Depends on the whole note history.", "anchors": ["src/sfizz/Synth.cpp: noteOnDispatch, finalizeSfzLoad, Impl::setupKeyswitches/lastKeyswitchLists_", "src/sfizz/SynthPrivate.h: setCurrentSwitch"]}
{"id": "C15", "title": "Notes held by the sustain pedal are released when it is lifted", "statement": "A voice whose note-off arrived while the sustain (resp. sostenuto) pedal held it is released on the event that lifts the pedal, and is not released before; no voice remains sounding with key up and pedals up.", "quantifier": "all interleavings of note-on, note-off, sustain and sostenuto events and all pedal-enable settings", "why_tests_cant": "Interleavings are unbounded; two pedals and per-region switches interact.", "anchors": ["src/sfizz/Voice.cpp: startVoice, registerNoteOff, registerCC, release"]}
{"id": "C16", "title": "Release-triggered regions play once per held note on pedal lift", "statement": "For trigger=release regions, note-offs received while the pedal is down are remembered (up to the documented capacity) and each is played exactly once when the pedal is lifted.", "quantifier": "all histories", "why_tests_cant": "Unbounded histories.", "anchors": ["src/sfizz/Layer.cpp: registerNoteOff, registerCC, delaySustainRelease, storeSostenutoNotes, removeFromSostenutoReleases"]}
{"id": "C17", "title": "Active-voice bookkeeping is exact", "statement": "At all times the set of voices counted as active globally, per polyphony group and per region set is exactly the set of voices that are playing (not idle) with the corresponding group and region ancestry, each counted once.", "quantifier": "all histories of voice state changes", "why_tests_cant": "Bookkeeping is spread over four containers updated by callbacks.", "anchors": ["src/sfizz/VoiceManager.cpp: onVoiceStateChanging, reset, ensureNumPolyphonyGroups", "src/sfizz/PolyphonyGroup.cpp", "src/sfizz/RegionSet.cpp"]}
{"id": "C18", "title": "Polyphony limits are enforced", "statement": "After a note is started, the number of voices playing (and not already being turned off) in the engine, in each polyphony group and region set does not exceed the configured polyphony.", "quantifier": "all histories, all limits", "why_tests_cant": "Depends on histories and on the stealing policy.", "anchors": ["src/sfizz/VoiceManager.cpp: checkPolyphony, checkRegionPolyphony, checkGroupPolyphony, checkSetPolyphony, checkNotePolyphony", "src/sfizz/VoiceStealing.cpp"]}
{"id": "C19", "title": "Starting a note never takes over a voice that is in use while a free one exists", "statement": "Voice allocation returns an idle voice whenever one exists; a busy voice is recycled only if all are busy, and then it is one that is already fading out; a voice being returned never aliases one still listed as playing.", "quantifier": "all pool states", "why_tests_cant": "All pool states and all ages.", "anchors": ["src/sfizz/VoiceManager.cpp: findFreeVoice", "src/sfizz/VoiceStealing.cpp"]}
{"id": "C20", "title": "Voices started together stay linked until each ends", "statement": "The sister relation of voices (those started by the same event) is always a set of disjoint rings: walking the ring from any voice visits exactly the voices started with it that have not ended, once each, and terminates.", "quantifier": "all start/end histories", "why_tests_cant": "Doubly linked pointer structure, arbitrary removal orders.", "anchors": ["src/sfizz/SisterVoiceRing.h: SisterVoiceRing, SisterVoiceRingBuilder", "src/sfizz/Voice.cpp: reset, getNextSisterVoice"]}
{"id": "C21", "title": "Sample playback never reads outside the sample", "statement": "For every pitch ratio curve, start offset, loop setting and sample length, each source frame index used in a block lies inside the sample (plus interpolation padding).", "quantifier": "all sample lengths, offsets, loop points, playback speeds, block sizes", "why_tests_cant": "Index arithmetic over unbounded parameter spaces.", "anchors": ["src/sfizz/Voice.cpp: fillWithData, fillInterpolated, updateLoopInformation"]}
{"id": "C22", "title": "Looped playback wraps exactly", "statement": "With looping enabled, for any running position the source position stays in the loop after its first pass and is congruent to the free-running position modulo the loop size.", "quantifier": "all loop bounds, all position sequences", "why_tests_cant": "Unbounded number of loop passes.", "anchors": ["src/sfizz/Voice.cpp: fillWithData, updateLoopInformation"]}
{"id": "C23", "title": "Temporary audio buffers are exclusive", "statement": "At any time a pooled buffer is lent to at most one holder, all buffers are available again once the holders are gone, and a request never returns a buffer smaller than asked.", "quantifier": "all sequences of acquire/release", "why_tests_cant": "Unbounded interleavings of holders' lifetimes.", "anchors": ["src/sfizz/BufferPool.h: BufferPool, SpanHolder"]}
{"id": "C24", "title": "Sample data in use by a voice is never garbage collected", "statement": "For every interleaving of the audio thread, the loader thread and the garbage collector, file data whose memory is referenced by a live holder is not freed.", "quantifier": "all thread interleavings", "why_tests_cant": "Schedules cannot be enumerated by tests.", "anchors": ["src/sfizz/FilePool.cpp: getFilePromise, loadingJob, triggerGarbageCollection, dispatchingJob", "src/sfizz/FilePool.h: FileData, FileDataHolder"]}
{"id": "C25", "title": "Parsing terminates on every input", "statement": "For every input text (and every finite file system of includes, including cyclic ones) the SFZ parser finishes.", "quantifier": "all texts, all include graphs", "why_tests_cant": "Infinite input space; non-termination cannot be observed by tests.", "anchors": ["src/sfizz/parser/Parser.cpp: processTopLevel, includeNewFile, expandDollarVars", "src/sfizz/parser/ParserPrivate.cpp: Reader"]}
{"id": "C26", "title": "Parsing returns the document that was written", "statement": "For every document (list of headers each with opcodes), parsing its textual form - any whitespace/newlines/comments between elements - reports exactly that list of headers and opcodes in order, with no error.", "quantifier": "all well-formed documents and layouts", "why_tests_cant": "Documents are unbounded and opcode values may contain spaces.", "anchors": ["src/sfizz/parser/Parser.cpp: processHeader, processOpcode, extractToEol, trimRight"]}
{"id": "C27", "title": "#define expansion substitutes exactly the definitions", "statement": "In every text, `$name` is replaced by the value of the definition applicable (the shortest defined prefix of the name), a reference to a name that is not defined is removed with a warning, and text without `$` is unchanged.", "quantifier": "all texts, all definition sets", "why_tests_cant": "Infinite; overlapping names need care.", "anchors": ["src/sfizz/parser/Parser.cpp: expandDollarVars, addDefinition, processDirective"]}
{"id": "C28", "title": "Parser positions are exact", "statement": "The source location (line, column) reported is that of the character in the text, for every text and every pattern of push-backs.", "quantifier": "all texts, all read/put-back sequences", "why_tests_cant": "Sequences of peeks/put-backs unbounded.", "anchors": ["src/sfizz/parser/ParserPrivate.cpp: Reader::getChar, putBackChar, updateSourceLocationAdding, updateSourceLocationRemoving"]}
{"id": "C29", "title": "Opcode names are decomposed reversibly", "statement": "Every opcode name decomposes into letters and numeric parameters: the k-th number in the name is the k-th parameter; names differing only by the numbers are treated as the same opcode.", "quantifier": "all opcode names", "why_tests_cant": "Infinite set of names.", "anchors": ["src/sfizz/Opcode.cpp: Opcode::Opcode, getLetterOnlyName", "src/sfizz/utility/StringViewHelpers.h"]}
{"id": "C30", "title": "Numeric opcode values respect their declared bounds", "statement": "For every opcode specification and every text, the value read is inside the declared bounds (if clamping is declared) or the default/rejected; a permissive bound passes the value through unchanged.", "quantifier": "all values, all specs", "why_tests_cant": "Infinite values; policy flags on each bound.", "anchors": ["src/sfizz/Opcode.cpp: transformInt_, transformFloat_, readInt_, readFloat_", "src/sfizz/Defaults.h: OpcodeSpec"]}
{"id": "C31", "title": "Note names map to MIDI keys correctly", "statement": "For every key 0..127, each of its names (c4, C#4, db4, ...) reads as the key; no text reads as a key outside 0..127.", "quantifier": "all texts", "why_tests_cant": "Infinite texts.", "anchors": ["src/sfizz/Opcode.cpp: readNoteValue"]}
{"id": "C32", "title": "Curves interpolate their points", "statement": "For every set of curve points, evaluation at a controlled point returns it exactly, evaluation between two adjacent points lies between them, and evaluation never indexes outside the table for any input.", "quantifier": "all curves, all inputs", "why_tests_cant": "Continuous domain.", "anchors": ["src/sfizz/Curve.cpp: fill, lerpFill, evalCC7, evalNormalized, buildFromHeader"]}
{"id": "C33", "title": "Curve numbering follows the instrument", "statement": "Curves declared with explicit index are retrieved at that index, curves without index get successive indices (as long as none was explicit before, else they are rejected), later declarations replace earlier ones, and unknown indices give the default curve.", "quantifier": "all declaration sequences", "why_tests_cant": "Unbounded sequences of declarations.", "anchors": ["src/sfizz/Curve.cpp: CurveSet::addCurve, getCurve, addCurveFromHeader"]}
{"id": "C34", "title": "The beat clock conserves time", "statement": "However a cycle is split by tempo/time-signature/position events, the musical position at the end of each block equals the sum of the elapsed beats at the tempos in force.", "quantifier": "all event sequences and block sizes", "why_tests_cant": "Unbounded sequences, stateful.", "anchors": ["src/sfizz/BeatClock.cpp: fillBufferUpTo, beginCycle, endCycle, setTempo, setTimeSignature, setTimePosition"]}
{"id": "C35", "title": "Amplitude envelopes always finish and stay in range", "statement": "Every released or one-shot envelope reaches its end after finitely many samples whatever block sizes are requested; the level stays in [0,1] during all stages; output does not depend on how blocks are split.", "quantifier": "all envelope settings, all block splits, all release times", "why_tests_cant": "Unbounded block patterns; stage boundaries.", "anchors": ["src/sfizz/ADSREnvelope.cpp: getBlock, getBlockInternal, startRelease, cancelRelease"]}
{"id": "C36", "title": "Flexible envelopes follow their points", "statement": "A flex envelope visits its points in order, stays at the sustain point until release and finishes after the last point.", "quantifier": "all point lists, block splits, release times", "why_tests_cant": "Unbounded.", "anchors": ["src/sfizz/FlexEnvelope.cpp: process, advanceToNextPoint, release"]}
{"id": "C37", "title": "Each modulation target receives the combination of its sources exactly once per block", "statement": "For every modulation graph, a target's value is the sum (or product) of its connected sources scaled by depth, starting from the neutral element; evaluation terminates even on cyclic graphs; each source is computed or discarded exactly once per block.", "quantifier": "all graphs, all evaluation orders", "why_tests_cant": "Arbitrary graphs.", "anchors": ["src/sfizz/modulations/ModMatrix.cpp: registerSource, registerTarget, connect, getModulation, beginCycle, endCycle, beginVoice, endVoice"]}
{"id": "C38", "title": "Controller-driven depth of one modulator does not affect another", "statement": "Different modulators of the same target have independent depth controls.", "quantifier": "all modulator indices, all targets", "why_tests_cant": "All pairs.", "anchors": ["src/sfizz/modulations/ModKey.cpp: ModKey::getSourceDepthKey"]}
{"id": "C39", "title": "Smoothing never overshoots and reaches its target", "statement": "A linearly smoothed controller stays between its previous value and target and reaches the target after the smoothing time, independent of block splitting.", "quantifier": "all inputs", "why_tests_cant": "Continuous inputs, unbounded time.", "anchors": ["src/sfizz/Smoothers.cpp: LinearSmoother::process, reset, setSmoothing"]}
{"id": "C40", "title": "Event-to-envelope rendering covers the block and hits the events", "statement": "Rendering a controller's events to a per-frame envelope writes every frame of the block exactly once and passes through each event's value at its frame.", "quantifier": "all event lists, block sizes", "why_tests_cant": "Unbounded.", "anchors": ["src/sfizz/ModifierHelpers.h: linearEnvelope, multiplicativeEnvelope, pitchBendEnvelope"]}
{"id": "C41", "title": "Crossfade gains are in [0,1] and monotone", "statement": "Key/velocity/controller crossfade gain is 0 before, 1 after (or the converse), between in the ramp, monotone and never exceeds 1.", "quantifier": "all ranges and positions", "why_tests_cant": "Continuous domain; gap constants.", "anchors": ["src/sfizz/SfzHelpers.h/ModifierHelpers.h: crossfadeIn, crossfadeOut"]}
{"id": "C42", "title": "LFO output is bounded, its step index valid and its shape the one described", "statement": "Every LFO waveform output lies in [-1,1] for any phase, and the step sequencer index is within the steps. The output at every frame is the sum of the subs at their point of the period - time since the start times frequency, or the host's position in beats while it plays - whatever the cut into blocks.", "quantifier": "all phases, steps, subs, modulations and histories of blocks, host playing or not", "why_tests_cant": "Continuous.", "anchors": ["src/sfizz/LFO.cpp: eval, processSteps, processWave, generatePhase, processFadeIn", "src/sfizz/BeatClock.cpp: calculatePhase, calculatePhaseModulated"]}
{"id": "C43", "title": "Power measurement does not depend on block sizes", "statement": "The power estimate after a stream of audio depends only on the audio, not on how it was split into blocks.", "quantifier": "all streams, all splits", "why_tests_cant": "Unbounded splits.", "anchors": ["src/sfizz/PowerFollower.cpp: process"]}
{"id": "C44", "title": "Reversed reading equals the reversed file for any block size", "statement": "Reading a file in reverse by successive blocks of any sizes and concatenating yields exactly the file's frames in reverse order, each frame's channels unpermuted, then 0 forever.", "quantifier": "all files, channel counts, block size sequences", "why_tests_cant": "Unbounded block patterns.", "anchors": ["src/sfizz/AudioReader.cpp: ReverseReader::readNextBlock, NoSeekReverseReader::readNextBlock, reverse_frames"]}
{"id": "C45", "title": "Sample metadata parsing is memory-safe and terminates", "statement": "For every byte content, opening and extracting loop metadata terminates and never reads outside the file or the fixed local buffers; found chunks are those present.", "quantifier": "all byte strings", "why_tests_cant": "Adversarial files.", "anchors": ["src/sfizz/FileMetadata.cpp: openRiff, openFlac, openAiff, readRiffData, extractRiffInstrument, extractAiffInstrument, MemoryMetadataReader"]}
{"id": "C46", "title": "Message paths dispatch to the right handler with the right indices", "statement": "A request path matches a pattern iff it equals the pattern with each & replaced by a decimal number, and the indices delivered are these numbers.", "quantifier": "all paths and patterns", "why_tests_cant": "Infinite.", "anchors": ["src/sfizz/SynthMessagingHelper.hpp: hashMessagePath, MessagingHelper::match"]}
{"id": "C47", "title": "Opcode inheritance order", "statement": "A region's settings are the concatenation of the current global, master, group and region opcodes in this order, where each header resets the lower levels; so the innermost wins.", "quantifier": "all header sequences", "why_tests_cant": "Unbounded header sequences.", "anchors": ["src/sfizz/Synth.cpp: onParseFullBlock, buildRegion, handleGlobalOpcodes, handleMasterOpcodes, handleGroupOpcodes"]}
{"id": "C48", "title": "Every controller index used is inside the controller table", "statement": "No opcode in an instrument (whatever its number) leads to access of a controller outside of the 512 slots.", "quantifier": "all opcode names/numbers", "why_tests_cant": "All numbers; off by one only at 512.", "anchors": ["src/sfizz/Region.cpp: parseOpcode", "src/sfizz/Synth.cpp: handleControlOpcodes", "src/sfizz/MidiState.cpp: getCCValue, ccEvent"]}
{"id": "C49", "title": "All sound off silences everything", "statement": "After CC 120/123 (all sound/notes off) as MIDI, no voice is active and no note is considered pressed.", "quantifier": "all histories", "why_tests_cant": "Unbounded histories.", "anchors": ["src/sfizz/Synth.cpp: performHdcc, allSoundOff", "src/sfizz/MidiState.cpp: allNotesOff"]}
{"id": "C50", "title": "Bit sets behave as sets", "statement": "Slot bitmaps (CCs used, keys, keyswitches) report exactly the slots set and not reset; any/all/none agree with that.", "quantifier": "all operation histories, all sizes", "why_tests_cant": "Sizes not multiple of 8, histories.", "anchors": ["src/sfizz/utility/bit_array/BitArray.h: BitSpan, ConstBitSpan"]}
{"id": "C51", "title": "Off-by groups silence exactly the voices they should", "statement": "Starting a voice in group g turns off exactly the playing voices whose off_by is g and that were not started by the same event on same note in the same group.", "quantifier": "all voice populations", "why_tests_cant": "All populations.", "anchors": ["src/sfizz/Voice.cpp: checkOffGroup", "src/sfizz/Synth.cpp: checkOffGroups"]}
{"id": "C52", "title": "Key transposition of an instrument stays on the keyboard", "statement": "With any note_offset/octave_offset all key numbers remain 0..127 or the region is disabled.", "quantifier": "all offsets, all keys", "why_tests_cant": "All integers.", "anchors": ["src/sfizz/SfzHelpers.h: offsetAndClampKey", "src/sfizz/Region.cpp: offsetAllKeys", "src/sfizz/SynthPrivate.h: setCurrentSwitch"]}
{"id": "C53", "title": "The spin lock gives mutual exclusion", "statement": "For all interleavings at most one thread is between lock and unlock.", "quantifier": "all schedules, any number of threads", "why_tests_cant": "Schedules.", "anchors": ["src/sfizz/utility/spin_mutex/SpinMutex.h, SpinMutex.cpp"]}
{"id": "C54", "title": "Reported note duration is the time since the key was pressed", "statement": "The duration of a note is the number of samples between its note-on (with its position in its block) and the query (with its position in its block), whatever happens in between.", "quantifier": "all histories of events and blocks", "why_tests_cant": "Unbounded histories, wrapping sample clock.", "anchors": ["src/sfizz/MidiState.cpp: getNoteDuration, advanceTime, noteOnEvent"]}
{"id": "C55", "title": "Controllers derived from the notes", "statement": "Each note-on updates the alternate controller with the parity of the number of notes played before, and the key-delta controllers with the (absolute) interval to the previously played key.", "quantifier": "all note histories", "why_tests_cant": "State carried over unbounded histories.", "anchors": ["src/sfizz/MidiState.cpp: noteOnEvent, resetNoteStates"]}
{"id": "C56", "title": "Every call is defined and returns", "statement": "Whatever the instrument and whatever the sequence of note, controller, pedal, choke, render and voice-count calls, each call returns: chains of chokes and release triggers end, and no call reads a voice without region, an empty list, or an unclosed ring of sister voices.", "quantifier": "all instruments (regions, groups, off_by, release triggers), all sequences of API calls, all stealing policies with limits of at least one", "why_tests_cant": "A test plays a few chains of chokes; recursion depth and dangling links depend on the whole history.", "anchors": ["src/sfizz/Synth.cpp:noteOffDispatch", "src/sfizz/Synth.cpp:checkOffGroups", "src/sfizz/SisterVoiceRing.h", "src/sfizz/VoiceStealing.cpp"]}
{"id": "C57", "title": "A voice's age counts the frames since its start", "statement": "The age of a playing voice, by which the oldest is stolen, equals the number of frames rendered since the voice was triggered.", "quantifier": "all histories of blocks and triggers", "why_tests_cant": "Needs every block size and trigger delay.", "anchors": ["src/sfizz/Voice.cpp:renderBlock", "src/sfizz/VoiceStealing.cpp"]}
{"id": "C58", "title": "A choked voice stays choked", "statement": "A voice turned off by polyphony or by an off group keeps fading out whatever controllers follow.", "quantifier": "all instruments and histories", "why_tests_cant": "Needs every order of pedal and choke events.", "anchors": ["src/sfizz/Voice.cpp:registerCC", "src/sfizz/Voice.cpp:off"]}
{"id": "C59", "title": "Companion controller opcodes concern the same target and controller", "statement": "From the name of a controller opcode (x_onccN, x_curveccN, x_stepccN, x_smoothccN), the derived name for any other of these kinds is the one with the same x and the same N, and is recognized as that kind; the derived plain name is x.", "quantifier": "all opcode names and all pairs of kinds", "why_tests_cant": "Unbounded set of names.", "anchors": ["src/sfizz/Opcode.cpp:getDerivedName", "src/sfizz/Opcode.cpp:identifyCategory"]}
{"id": "C60", "title": "Registering modulations keeps identifiers and connections consistent", "statement": "Registering a modulation source or target twice gives the same identifier, identifiers stay valid while an instrument is being loaded, and connecting a source to a target sets exactly that connection, even when the depth control of the connection has to be registered at the same time.", "quantifier": "all sequences of registrations and connections", "why_tests_cant": "Unbounded sequences; vector reallocation order.", "anchors": ["src/sfizz/modulations/ModMatrix.cpp: registerSource, registerTarget, connect", "src/sfizz/Synth.cpp: setupModMatrix"]}
{"id": "C61", "title": "Preloaded and streamed sample data are the same sound", "statement": "The memory filled by preloading a sample and by loading it in the background hold the frames of the file (or their reversal) at their own positions in each channel, silence after the delivered frames, and the reported number of available frames is exact; so a voice passing from one to the other hears no jump.", "quantifier": "all files, channel counts, directions, preload sizes, chunk sizes", "why_tests_cant": "Unbounded file sizes and chunk boundaries.", "anchors": ["src/sfizz/FilePool.cpp: readBaseFile, streamFromFile, setRamLoading", "src/sfizz/AudioReader.cpp"]}
{"id": "C62", "title": "Loading a new instrument never destroys sample data a loading job still uses", "statement": "When an instrument is cleared or replaced while samples are being requested, background jobs never use sample entries that have been destroyed; and offline (freewheeling) rendering does not begin a block before every requested sample is loaded.", "quantifier": "all interleavings of requests, dispatcher, jobs and the clearing thread", "why_tests_cant": "Schedules cannot be enumerated by tests.", "anchors": ["src/sfizz/Synth.cpp: Impl::clear, renderBlock", "src/sfizz/FilePool.cpp: waitForBackgroundLoading, dispatchingJob, loadingJob, clear"]}
{"id": "C63", "title": "Rendering never runs out of temporary buffers", "statement": "Whatever voices are playing (samples, looped and crossfaded samples, all oscillator types) and however they are filtered and modulated, rendering a block of at most the configured size is given every temporary buffer it asks for, and all of them are free again afterwards.", "quantifier": "all sets of voices with any numbers of filters, equalizers, LFOs, sub-oscillators and loop crossfades, any order in which the LFOs are evaluated", "why_tests_cant": "The largest simultaneous demand depends on combinations of features; a refusal is silent (a modulation or a voice is dropped).", "anchors": ["src/sfizz/BufferPool.h", "src/sfizz/Config.h: bufferPoolSize", "src/sfizz/Voice.cpp: fillWithGenerator, fillWithData, ampStage, panStage, filterStage", "src/sfizz/LFO.cpp: process, generatePhase", "src/sfizz/modulations/ModMatrix.cpp: getModulation", "src/sfizz/Region.cpp: LFO targets"]}
{"id": "C64", "title": "Message indices never reach outside the engine's tables", "statement": "Whatever numbers a message path contains, the handler either acts on the existing element with that number or does nothing; it never touches memory outside the engine's tables.", "quantifier": "all messages, all index values, all instruments", "why_tests_cant": "A check with a wrong sign or a wrong bound only shows for particular index values.", "anchors": ["src/sfizz/SynthMessagingHelper.hpp: getRegion, getVoice, getEGPoint, checkCC, checkNote", "src/sfizz/SynthMessaging.cpp: dispatchMessage"]}
{"id": "C65", "title": "Voices have room for everything a region holds", "statement": "After loading and after any sequence of messages that add filters, equalizers or envelopes to regions, starting a voice for any region stays within the voice's own filters and equalizers.", "quantifier": "all instruments and all sequences of add messages", "why_tests_cant": "The effect is memory corruption at a later note.", "anchors": ["src/sfizz/SynthMessaging.cpp: add_filter, add_eq, add_eg", "src/sfizz/Voice.cpp: startVoice", "src/sfizz/Synth.cpp: applySettingsPerVoice"]}
{"id": "C66", "title": "Loop count is respected", "statement": "A region with loop_count=n repeats its loop n times and then plays on to the end of the sample, however rendering is split into blocks.", "quantifier": "all loop bounds, speeds, block splits", "why_tests_cant": "Unbounded splits and loop lengths; the defect only shows when a block begins exactly at the loop point.", "anchors": ["src/sfizz/Voice.cpp: fillWithData"]}
{"id": "C67", "title": "Every instrument text is read without fault", "statement": "Whatever opcodes a file contains, with whatever names, numbers and values, reading it into an instrument never overflows an integer, reads an empty list or writes outside a table.", "quantifier": "all sequences of headers and opcodes", "why_tests_cant": "Opcode names, indices and values are unbounded text; faults are silent.", "anchors": ["src/sfizz/Synth.cpp: buildRegion, handleControlOpcodes, onParseFullBlock", "src/sfizz/Region.cpp: parseOpcode", "src/sfizz/SfzHelpers.h: offsetAndClampKey"]}
{"id": "C68", "title": "Headers limit the polyphony of the regions under them", "statement": "Each global, master and group header of a file makes one set of regions, inside the nearest preceding header of an outer level, limited to the polyphony given in the header (256 if none); each region belongs to the last header before it.", "quantifier": "all sequences of headers and opcodes", "why_tests_cant": "Any nesting of headers of any length.", "anchors": ["src/sfizz/Synth.cpp: newRegionSet, onParseFullBlock, handleGroupOpcodes, handleMasterOpcodes, handleGlobalOpcodes", "src/sfizz/RegionSet.cpp"]}
{"id": "C69", "title": "Vectorised buffer operations equal the scalar ones", "statement": "Every operation on buffers of samples (gains, sums, differences, ramps, running sums, clamping, means, range tests, interleaving) writes the specified value to each element of its output, changes nothing else, and gives the same result in its vectorised and scalar versions, whatever the number of elements and the alignment of the buffers; it never faults.", "quantifier": "all sizes, addresses, contents, and inputs that are the output or do not overlap it", "why_tests_cant": "The result depends on four residues of three addresses and any size; tests run a few sizes on buffers of one alignment.", "anchors": ["src/sfizz/simd/HelpersSSE.cpp", "src/sfizz/simd/HelpersScalar.h", "src/sfizz/simd/Common.h", "src/sfizz/SIMDHelpers.h: gain, multiplyAdd, linearRamp, multiplicativeRamp, cumsum, diff, mean, sumSquares, allWithin, readInterleaved, writeInterleaved"]}
{"id": "C70", "title": "Interpolation of samples", "statement": "Between two samples of a sound, nearest, linear and Hermite interpolation go through both samples; linear, Hermite and B-spline interpolation reproduce a straight line, and Hermite a parabola; nearest, linear and B-spline values never leave the range of the samples they are made from; the vectorised versions compute the same as the generic ones; the windowed sinc interpolators only read table entries that were computed, and weight the samples by the window at their distance.", "quantifier": "all signals, all fractions between 0 and 1, all sinc sizes of the program", "why_tests_cant": "The claims are identities over all signals and fractions; a test sees a few curves with a tolerance that hides a lookup slightly off its centre.", "anchors": ["src/sfizz/Interpolators.hpp", "src/sfizz/MathHelpers.h: hermite3, bspline3, hermite3x4, bspline3x4", "src/sfizz/WindowedSinc.hpp", "src/sfizz/WindowedSinc.cpp"]}
{"id": "C71", "title": "Panning and stereo width", "statement": "For any pan value the two gains are defined and between 0 and 1; fully left silences the right channel and keeps the left one, fully right the reverse, the middle gives both the same gain at half power; moving the pan to the right never lowers the right gain or raises the left one; the two gains keep constant power and follow the cosine law within a known error; width 1 keeps a stereo signal, 0 makes it mono, -1 swaps it.", "quantifier": "all pan values (also outside -1..1), all samples", "why_tests_cant": "The lookup table must never be read outside its bounds and monotony concerns all pairs of values.", "anchors": ["src/sfizz/Panning.cpp: pan, width, panLookup, tickPan, tickWidth"]}
{"id": "C72", "title": "One-pole smoothing", "statement": "Smoothed values stay between the bounds of the starting value and of the inputs, whatever the blocks; towards a constant value the distance shrinks at each frame by a fixed factor that does not depend on how the frames are divided into blocks; the shortcut moves the value at once only if it is within the threshold; without smoothing the input comes out unchanged; low and high pass add up to the input.", "quantifier": "all gains between 0 and 1, all inputs, all divisions into blocks", "why_tests_cant": "Overshoot and dependence on the block size concern all inputs and all divisions of a stream.", "anchors": ["src/sfizz/OnePoleFilter.h", "src/sfizz/Smoothers.cpp: OnePoleSmoother"]}
{"id": "C73", "title": "Which voices stop to make room for a start", "statement": "After a start of a region limited to n voices per note (note_polyphony), at most n voices of its group sound for that note; with note_selfmask there can be more only if all the others are louder than the new one. Voices stop only when there are too many, softest first with note_selfmask and oldest first without, together with the voices started by the same event; louder voices are not chosen under note_selfmask. When a polyphony limit is reached, the oldest policy stops a voice than which none is older and the first policy the first voice; below the limit nothing stops. A voice started by a note remembers its number and velocity; one started by a controller plays the key centre.", "quantifier": "all histories, all regions, all events, all limits of at least one", "why_tests_cant": "Depends on histories of starts, on the order of the sort and on rings of voices started together.", "anchors": ["src/sfizz/VoiceManager.cpp: checkNotePolyphony", "src/sfizz/VoiceStealing.cpp", "src/sfizz/Voice.cpp: startVoice"]}
{"id": "C74", "title": "Timer conditions", "statement": "A region with lotimer or hitimer plays only if the time since the latest start in its group is in the range; a start makes its own time the latest of its group and leaves the other groups alone.", "quantifier": "all states, clocks, delays and ranges", "why_tests_cant": "Depends on the history of starts and on unsigned arithmetic of sample clocks.", "anchors": ["src/sfizz/VoiceManager.cpp: withinValidTimerRange", "src/sfizz/PolyphonyGroup.cpp: registerVoice", "src/sfizz/Synth.cpp: noteOnDispatch, ccDispatch"]}
{"id": "C75", "title": "Start, end and loop points stay inside the sample", "statement": "The frame a note starts at, the end and the loop points are the written values plus what the controllers add, held inside the sample and in order; a note starts where sample data has been read in advance; the start delay stays between 0 and 100 seconds.", "quantifier": "all opcode values in their declared ranges, all controller values, all random draws, all sets of regions sharing a sample", "why_tests_cant": "Sums over any number of controllers with any values.", "anchors": ["src/sfizz/RegionStateful.cpp: sampleOffset, regionDelay, sampleEnd, loopStart, loopEnd", "src/sfizz/Voice.cpp: updateLoopInformation", "src/sfizz/Synth.cpp: finalizeSfzLoad", "src/sfizz/FilePool.cpp: preloadFile"]}
{"id": "C76", "title": "Loudness and pitch of a note", "statement": "The gain of a note is never negative and at most what key tracking gives; with positive velocity tracking harder is never softer, with negative never louder, and full velocity is full gain; fades by controllers lie in [0,1], silent outside and full inside; the pitch ratio is positive and doubles per octave with the default tracking, tuning and transposition acting by their cents; volumes of the headers add up in decibels and a release sample loses rt_decay per second held.", "quantifier": "all keys, velocities, controller values, curves, tracking amounts and random draws", "why_tests_cant": "Continuous parameters and any number of controllers.", "anchors": ["src/sfizz/RegionStateful.cpp: noteGain, velocityCurve, crossfadeGain, basePitchVariation, baseVolumedB"]}
{"id": "C77", "title": "Every voice reaches its output once, through the buses the instrument asks for", "statement": "In every rendered block, the host's channel pair of an output carries the volume times the sum over the buses of that output of: the sum of the voices playing to the output at their send gains, through the bus's effects in the order of the file, at the bus's gains (the last ones written; 100% for the main bus and 0 for the others by default). The order of the voices and the previous content of the buffers do not matter; each effect of a bus that is heard runs exactly once per block on exactly this signal. After loading any instrument every region's output is one that is mixed.", "quantifier": "all instruments (any number and order of effect headers, any outputs), all sets of voices and signals, all effects, all block sizes, all earlier blocks", "why_tests_cant": "Tests render a few instruments with one or two effects; they cannot cover all numbers of voices, outputs, buses and effect chains, nor show independence of old buffer contents.", "anchors": ["src/sfizz/Effects.cpp: EffectBus::addToInputs, process, mixOutputsTo", "src/sfizz/Synth.cpp: renderBlock, addEffectBusesIfNecessary, handleEffectOpcodes, finalizeSfzLoad, clear", "src/sfizz/Region.cpp: getGainToEffectBus", "src/sfizz/SynthMessaging.cpp: /region&/output"]}
{"id": "C78", "title": "Old spellings of opcodes mean the same as the current ones", "statement": "An instrument that writes an opcode in an older spelling (ARIA, SFZ 1 or the engine's own earlier names), in any case of letters, behaves as if it was written in the current spelling: the result of the translation is exactly what the table of old and current names says, names outside of the table stay as they are, and translating a current name changes nothing. The same holds in every header that reads the opcode.", "quantifier": "all opcode names (any text), all kinds of headers", "why_tests_cant": "The unit tests translate a few dozen names; the translator is a generated automaton with overlapping patterns and a rewriting step that is applied again to its own result, so the claim ranges over all texts.", "anchors": ["src/sfizz/OpcodeCleanup.re: cleanUpOpcodeName", "src/sfizz/Opcode.cpp: Opcode::cleanUp", "src/sfizz/Synth.cpp: handleGroupOpcodes, handleMasterOpcodes"]}
{"id": "C79", "title": "Microtuning follows the scale, the root key and the reference frequency set last", "statement": "After any sequence of loading Scala files or texts, setting the root key and setting the tuning frequency, every key sounds at the frequency the last scale prescribes: key 69 has the reference frequency, the root key is degree 0, the scale repeats at its last tone upwards and downwards; without a scale the engine plays equal temperament. A Scala file is read as its format says (comments, description, count, cents, ratios, text after a tone ignored), anything else is rejected and equal temperament is restored, and loading again is suggested exactly when the loaded file is newer than any version seen.", "quantifier": "all sequences of calls, all texts, all scales of 1 to 64 tones, all root keys, frequencies and keys", "why_tests_cant": "The tables depend on wrap-around arithmetic with truncating division over all root keys and scale sizes, and on the order of calls that each rebuild only a part; tests load a few scales.", "anchors": ["src/sfizz/Tuning.cpp: Tuning::Impl", "src/external/tunings/src/Tunings.cpp: readSCLStream, toneFromString, Tuning::Tuning", "src/sfizz/Synth.cpp: loadScalaFile, loadScalaString, setScalaRootKey, setTuningFrequency, shouldReloadScala"]}
{"id": "C80", "title": "Stretch tuning is continuous, bounded and keeps the order of the keys", "statement": "For every position of the stretch knob, the factor put on the pitch of a key lies on the straight line between the neighbouring known curves (no stretch at 0), never leaves the range of the curves, does not decrease from a key to a higher one (also between whole keys), and higher keys always sound higher.", "quantifier": "all knob positions, all keys including fractional ones", "why_tests_cant": "Knob and fractional keys are continuous; tests sample a few.", "anchors": ["src/sfizz/Tuning.cpp: StretchTuning", "src/sfizz/Synth.cpp: loadStretchTuningByRatio", "src/sfizz/Voice.cpp: startVoice (pitchRatio_)"]}
{"id": "C81", "title": "What a controller modulates with", "statement": "Used as a modulation source, a controller that belongs to voices (velocity, key, gate, random, alternation, key distance) gives each voice that voice's own value; any other controller gives its events through the curve; smoothing follows these values without leaving their range, from the value at the start; steps round the contribution to multiples of the step; and sources do not disturb each other.", "quantifier": "all histories of starts, blocks, sample rate changes and resets, all curves, all controllers, all voices", "why_tests_cant": "Interference between voices or sources shows only in particular interleavings of notes and blocks.", "anchors": ["src/sfizz/modulations/sources/Controller.cpp: ControllerSource", "src/sfizz/Synth.cpp: setupModMatrix", "src/sfizz/Region.cpp: processGenericCc"]}
{"id": "C82", "title": "A key-switched region waits for its switch", "statement": "Whatever the file, a region that has a key-switch condition (sw_last, sw_lolast/sw_hilast, sw_down) or a previous-note condition is silent until the condition is met, and a region without one never waits.", "quantifier": "all files, all orders and values of opcodes at all levels", "why_tests_cant": "The flags depend on the order of opcodes inherited from several headers.", "anchors": ["src/sfizz/Region.cpp: parseOpcode", "src/sfizz/Layer.cpp: initializeActivations"]}
{"id": "C83", "title": "A chain of effects is its effects in turn", "statement": "The output of a bus is what one gets by passing its input through the effects of the bus one after the other, each as if it were alone.", "quantifier": "all lists of effects, all states of them, all signals, blocks of up to the block size, whatever the output buffers held", "why_tests_cant": "a test takes a few chains; effects after the first run in place on the output buffers, which only matters for some of them", "anchors": ["src/sfizz/Effects.cpp: EffectBus::process", "src/sfizz/effects/*.cpp: process"]}
{"id": "C84", "title": "Effects do not depend on the block size", "statement": "The signal that leaves a bus is the same however the signal that enters it is cut into blocks.", "quantifier": "all lists of effects, all signals, all ways to cut them into blocks", "why_tests_cant": "infinitely many cuts; the host chooses them", "anchors": ["src/sfizz/Effects.cpp: EffectBus::process", "src/sfizz/effects/*.cpp: process"]}
{"id": "C85", "title": "A compressor follows its threshold and ratio", "statement": "A compressor never amplifies, never compresses more than its ratio asks for at the loudest level heard, leaves signals below its threshold and everything at ratio 1 as they are, and brings a steady level above the threshold to threshold + (level - threshold) / ratio.", "quantifier": "all signals, all settings the opcodes allow, all sample rates", "why_tests_cant": "a limit and a statement on all signals", "anchors": ["src/sfizz/effects/gen/compressor.hxx: compute", "src/sfizz/effects/Compressor.cpp"]}
{"id": "C86", "title": "The width effect does what its percentage says", "statement": "With width=100 the effect leaves the signal alone, with width=-100 it exchanges the channels, with width=0 both channels are equal.", "quantifier": "all signals, all values of the opcode", "why_tests_cant": "a property of all values of the opcode at once", "anchors": ["src/sfizz/effects/Width.cpp: process, makeInstance", "src/sfizz/Defaults.cpp: width"]}
{"id": "C87", "title": "All sound off silences the effects", "statement": "After all sound off the effects of a bus play silence for as long as no voice plays.", "quantifier": "all chains of effects, all earlier signals, all later lengths", "why_tests_cant": "the remains of any earlier signal, for an unbounded time", "anchors": ["src/sfizz/Synth.cpp: allSoundOff", "src/sfizz/Effects.cpp: EffectBus::clear", "src/sfizz/effects/*.cpp: clear"]}
{"id": "C88", "title": "A gate opens above its threshold and for its hold time", "statement": "The gain of a gate is between 0 and 1, a signal that never exceeds the threshold does not pass, and without attack and release a sample passes exactly if the signal exceeded the threshold at that sample or during the hold time before.", "quantifier": "all signals, all settings the opcodes allow, all sample rates", "why_tests_cant": "a property of the whole history of the signal", "anchors": ["src/sfizz/effects/gen/gate.hxx: compute", "src/sfizz/effects/Gate.cpp"]}
{"id": "C89", "title": "A limiter keeps the signal within full scale and leaves quiet signals alone", "statement": "The limiter never amplifies, leaves a signal within full scale as it is, and its output never exceeds full scale.", "quantifier": "all signals, all coefficients", "why_tests_cant": "all signals and all coefficients, and limits", "anchors": ["src/sfizz/effects/gen/limiter.hxx: compute", "src/sfizz/effects/Limiter.cpp"]}
{"id": "C90", "title": "Linked channels are measured together", "statement": "With stereo linking a compressor or gate applies to both channels the gain for the sum of their levels at each instant; without it each channel has its own.", "quantifier": "all signals, all detectors", "why_tests_cant": "all signals; a test with equal or constant channels does not see it", "anchors": ["src/sfizz/effects/Compressor.cpp: process", "src/sfizz/effects/Gate.cpp: process"]}
{"id": "C91", "title": "Effects that only attenuate never add energy", "statement": "A chain of gains of at most 0 dB, rectifiers, compressors, gates and limiters never puts out more energy than it was given; oversampling does not add any.", "quantifier": "all such chains with all settings, all signals, all ways to cut them into blocks", "why_tests_cant": "a bound on all signals; a test only sees the signals tried", "anchors": ["src/sfizz/effects/Rectify.cpp", "src/sfizz/effects/Compressor.cpp", "src/sfizz/effects/Gate.cpp", "src/sfizz/effects/Limiter.cpp", "src/external/hiir/hiir/StageProcFpu.hpp"]}
{"id": "C92", "title": "Effects in neutral settings leave the signal alone", "statement": "A chain of effects at neutral settings (0 dB, no depth, no wet part) plays exactly what it is given.", "quantifier": "all chains, all states of the effects, all signals and blocks", "why_tests_cant": "all states and signals at once", "anchors": ["src/sfizz/Effects.cpp: EffectBus::process", "src/sfizz/effects/*.cpp: process"]}
{"id": "C93", "title": "The auto-pan balances and the bit reducer rounds", "statement": "The gains of an auto-pan add up to a constant, stay in range and its phase stays in one period; the bit reducer takes each sample to the nearest level, symmetrically and keeping order.", "quantifier": "all wave forms, phases and signals; all depths", "why_tests_cant": "properties of all samples, pairs of samples and times", "anchors": ["src/sfizz/effects/Apan.cpp: process, computeLfos", "src/sfizz/effects/Lofi.cpp: Bitred::process"]}
{"id": "C94", "title": "The sample rate reaches everything", "statement": "After any sequence of calls (sample-rate changes, voice-count changes, loads, failed loads, region-editing messages, notes, blocks), every time-dependent part of the engine - voices, smoothers, oscillators, LFOs, envelopes, filters, equalizers, modulation matrix, MIDI clock, beat clock, metronome and effects - runs at the sample rate set last.", "quantifier": "every history of engine calls, all sample rates, all instruments", "why_tests_cant": "The rate is copied into hundreds of objects, some recreated by later calls; only an invariant over all orders of calls shows none is left at an old or default rate.", "anchors": ["src/sfizz/Synth.cpp:Synth::setSampleRate", "src/sfizz/Synth.cpp:Synth::Impl::resetVoices", "src/sfizz/Synth.cpp:applySettingsPerVoice", "src/sfizz/Voice.cpp:setMaxFiltersPerVoice", "src/sfizz/Resources.cpp:setSampleRate"]}
{"id": "C95", "title": "Filters and equalizer bands are stable", "statement": "For every filter type of the two-, four- and six-pole families and every equalizer band, at every cutoff the engine accepts, any resonance, gain and bandwidth, a sound that stays within bounds comes out within bounds: the filter multiplies the peak by at most a constant.", "quantifier": "All sounds of any length, all settings, all sample rates.", "why_tests_cant": "Instability shows only for some settings and after arbitrarily long sounds; a test runs a few settings for a few blocks.", "anchors": ["src/sfizz/gen/filters/*.hxx", "src/sfizz/SfzFilter.cpp", "src/sfizz/dsp/filters/rbj_filters.dsp"]}
{"id": "C96", "title": "Filters have the documented gain at their landmarks", "statement": "A steady level, the highest representable frequency and a sine at the filter's own frequency come out multiplied by the gain the filter type promises: for instance a low-pass keeps steady levels, removes the top, and changes a sine at its cutoff by the resonance in dB; a notch removes its own frequency; a peak or equalizer band changes its centre by exactly its gain in dB whatever the bandwidth.", "quantifier": "All cutoffs, resonances, gains, bandwidths, sample rates, phases, numbers of sections.", "why_tests_cant": "A gain at a frequency is a limit over infinite sounds, for a continuum of settings.", "anchors": ["src/sfizz/gen/filters/*.hxx", "src/sfizz/dsp/filters/sfz_filters.dsp"]}
{"id": "C97", "title": "An equalizer band at 0 dB changes nothing", "statement": "A peak filter, shelf or equalizer band whose gain is 0 dB passes every sound through unchanged, sample for sample.", "quantifier": "All sounds, frequencies, bandwidths and movements of them.", "why_tests_cant": "Every sound and every movement of the controls must be considered.", "anchors": ["src/sfizz/gen/filters/sfzEqPeak.hxx", "src/sfizz/gen/filters/sfzPeq.hxx", "src/sfizz/EQPool.cpp:EQHolder::process"]}
{"id": "C98", "title": "A filter's answer does not depend on history, block sizes or other channels", "statement": "From the start of a note, each channel of a filter's output is a function of that channel's own sound and of the control values; earlier notes played through the same filter, the way the sound is cut into blocks and the other channels have no influence.", "quantifier": "All earlier states, all cuts into blocks, all sounds, all filter types.", "why_tests_cant": "Histories and block sequences are unbounded.", "anchors": ["src/sfizz/SfzFilter.cpp:Filter::processModulated", "src/sfizz/SfzFilter.cpp:Filter::prepare", "src/sfizz/FilterPool.cpp:FilterHolder::process"]}
{"id": "C99", "title": "Filters are linear", "statement": "Filtering the mix of two sounds gives the mix of the two filtered sounds, for every filter type and also while cutoff, resonance and gain move.", "quantifier": "All pairs of sounds, mixing weights, control movements, filter types.", "why_tests_cant": "A law about all pairs of sounds.", "anchors": ["src/sfizz/gen/filters/*.hxx", "src/sfizz/SfzFilter.cpp:Filter::processModulated"]}
{"id": "C100", "title": "One-pole filters are stable and keep their promises", "statement": "The one-pole filters answer bounded sound with bounded sound; the low-pass never raises the peak of a sound and keeps steady levels; high-pass and band-pass remove steady levels; the all-pass keeps the energy of every sound and the amplitude of every sine.", "quantifier": "All sounds, all cutoffs the engine accepts, all sample rates.", "why_tests_cant": "Energy and boundedness are statements about unbounded sounds; instability appears only beyond a certain cutoff.", "anchors": ["src/sfizz/gen/filters/sfzLpf1p.hxx", "src/sfizz/gen/filters/sfzHpf1p.hxx", "src/sfizz/gen/filters/sfzBpf1p.hxx", "src/sfizz/gen/filters/sfzApf1p.hxx", "src/sfizz/gen/filters/sfzBrf1p.hxx", "src/sfizz/dsp/filters/filters_modulable.dsp"]}
{"id": "C101", "title": "State-variable filters behave like their ordinary counterparts", "statement": "The state-variable low-pass, high-pass, band-pass and band-reject are stable below half the sample rate and have the landmark gains of their type: the low-pass removes the top of the spectrum and gives a sine at its cutoff the resonance, the high-pass removes steady levels, the band-reject removes its own frequency.", "quantifier": "All sounds, settings and sample rates.", "why_tests_cant": "Limits over infinite sounds for a continuum of settings.", "anchors": ["src/sfizz/gen/filters/sfzLpf2pSv.hxx", "src/sfizz/gen/filters/sfzHpf2pSv.hxx", "src/sfizz/gen/filters/sfzBpf2pSv.hxx", "src/sfizz/gen/filters/sfzBrf2pSv.hxx"]}
{"id": "C102", "title": "Voices always own what their region needs", "statement": "Starting a note or rendering a block never uses a filter, equalizer, LFO or envelope that the voice does not own, nor an envelope without a description, whatever calls and messages came before.", "quantifier": "every history of engine calls, instruments and region-editing messages", "why_tests_cant": "The counts are kept per engine and re-applied by several calls; a mismatch is an out-of-range index that shows only for particular orders of calls.", "anchors": ["src/sfizz/Synth.cpp:finalizeSfzLoad", "src/sfizz/Synth.cpp:applySettingsPerVoice", "src/sfizz/SynthMessaging.cpp:/region&/add_filter", "src/sfizz/Voice.cpp:startVoice", "src/sfizz/FlexEnvelope.cpp:process"]}
{"id": "C104", "title": "The decimator is a sample and hold", "statement": "The decimating effect takes the input at every tick of its slower clock and holds it until the next tick, whatever the sound, the depth, the rate and the block sizes.", "quantifier": "all inputs, depths, sample rates, block cuts", "why_tests_cant": "Which frames are taken depends on an accumulated phase over arbitrarily long sounds; particular depths make every tick fall on a frame.", "anchors": ["src/sfizz/effects/Lofi.cpp:Lofi::Decim::process"]}
{"id": "C105", "title": "Loading an instrument forgets the previous one", "statement": "After any history of loads and calls, loading an instrument leaves names of controllers and keys, default path, images, offsets, RAM loading, stealing algorithm, polyphony groups, controller defaults and values as they would be in a new engine that loads only this instrument; reloading the same file keeps the controllers where they are.", "quantifier": "All histories of loads (of any instruments), controller moves, controller resets and voice count changes; all file names and control opcodes of the loaded instrument", "why_tests_cant": "Leaks depend on which instruments came before; a test starts from a new engine or one fixed sequence", "anchors": ["src/sfizz/Synth.cpp: Synth::Impl::clear, prepareSfzLoad, handleControlOpcodes, resetDefaultCCValues, loadSfzFile", "src/sfizz/VoiceManager.cpp: reset, setStealingAlgorithm"]}
{"id": "C106", "title": "Voices measure what the stealing algorithm compares", "statement": "Whenever the stealing algorithm in force compares the powers of voices, the voices measure their power; whenever it does not, they do not.", "quantifier": "All histories of loads and calls, followed by any later calls", "why_tests_cant": "The relation must survive every order of loads and settings; a test fixes the order", "anchors": ["src/sfizz/VoiceManager.cpp: setStealingAlgorithm, requireNumVoices", "src/sfizz/Synth.cpp: setNumVoices, resetVoices"]}
{"id": "C107", "title": "An oscillator reads its waveform and nothing else", "statement": "Whatever the pitch and detuning do from frame to frame, and however phases are rounded, a generator voice computes every sample from its waveform repeated without end, at every quality; it never reads elsewhere and has no seam between periods.", "quantifier": "All sequences of frequencies and detunings, all starting phases, all qualities, all waveforms and table sizes, all monotone roundings", "why_tests_cant": "Out-of-range reads depend on rounding and on modulation values that tests do not enumerate", "anchors": ["src/sfizz/Wavetables.cpp: WavetableOscillator::processModulated, incrementAndWrap, WavetableMulti::fillExtra", "src/sfizz/Wavetables.h: getTablePointer, getInterpolationPair"]}
{"id": "C108", "title": "The pitch of an oscillator is exact and independent of blocks", "statement": "After any changes of pitch the oscillator is where the sum of the frequencies over time puts it; two blocks in a row are one longer block; a constant pitch gives what an unchanging modulated one gives.", "quantifier": "All sequences of frequencies and detunings and all ways of cutting them into blocks (exact arithmetic)", "why_tests_cant": "Drift and block effects show only over all histories", "anchors": ["src/sfizz/Wavetables.cpp: process, processModulated, incrementAndWrap"]}
{"id": "C109", "title": "Oscillators do not alias", "statement": "For every playing frequency and quality, no harmonic held by the wavetables that are read sounds above half the reference sample rate.", "quantifier": "All frequencies, detunings and qualities; all waveforms", "why_tests_cant": "The choice of table has a continuum of inputs and borders between tables", "anchors": ["src/sfizz/Wavetables.cpp: MipmapRange::getIndexForFrequency, WavetableMulti::createForHarmonicProfile, HarmonicProfile::generate"]}
{"id": "C110", "title": "What the waveforms are", "statement": "No waveform has an offset; the sine is a sine of the given amplitude; a single-cycle file is reproduced, less its mean; the oscillators of a unison are spread evenly, with gains that add up to one, and centred on the pitch of the note.", "quantifier": "All harmonic profiles, table sizes, cutoffs, files, numbers of oscillators and detunings (exact arithmetic)", "why_tests_cant": "Identities over all profiles and files; tests compare a few waveforms with a tolerance", "anchors": ["src/sfizz/Wavetables.cpp: HarmonicProfile::generate, WavetablePool::createFileWave", "src/sfizz/Voice.cpp: setupOscillatorUnison"]}
{"id": "C111", "title": "References keep a synthesizer alive", "statement": "A synthesizer handle obtained from the C interface can be used as long as its holder has not given back their reference: whatever other holders do, in any order, the object exists until the last reference is given back, and is destroyed exactly once, then.", "quantifier": "every sequence of create, add-reference and free calls by any number of holders, in every interleaving", "why_tests_cant": "tests run a few fixed call sequences; the claim is about all interleavings of any length", "anchors": ["src/sfizz/sfizz_wrapper.cpp:sfizz_create_synth,sfizz_add_ref,sfizz_free", "src/sfizz/sfizz_private.hpp"]}
{"id": "C112", "title": "The list of unknown opcodes is complete and well formed", "statement": "After a load, the text returned for the unknown opcodes contains each opcode name that no region or block understood, once, in order of first occurrence, joined by commas, ended by one zero byte exactly at the end of the allocation.", "quantifier": "every instrument, hence every list of names without zero bytes or commas", "why_tests_cant": "the buffer is sized and filled by two separate loops; a sample of lists does not exclude an off-by-one for another", "anchors": ["src/sfizz/sfizz_wrapper.cpp:sfizz_get_unknown_opcodes", "src/sfizz/Synth.cpp:getUnknownOpcodes"]}
{"id": "C113", "title": "Labels returned by the C interface are readable", "statement": "For every index within the reported number of key or controller labels, the returned number and text are those of the instrument, and the text can be read after the call; outside, the number is negative and the text is null.", "quantifier": "every list of labels, every index", "why_tests_cant": "a dangling pointer often still reads as the right text in a test", "anchors": ["src/sfizz/sfizz_wrapper.cpp:sfizz_get_key_label_text,sfizz_get_cc_label_text,sfizz_get_key_label_number"]}
{"id": "C114", "title": "An audio file loads as a one-region instrument", "statement": "Loading an audio file of a recognised extension gives one region that plays this very file over the whole keyboard, whatever the name and the directory of the file.", "quantifier": "every file name and directory", "why_tests_cant": "file names are unbounded; tests try a few tame ones", "anchors": ["src/sfizz/import/foreign_instruments/AudioFile.cpp:convertToSfz", "src/sfizz/import/sfizz_import.cpp"]}
{"id": "C115", "title": "A DecentSampler preset loads as what it says", "statement": "Loading a preset gives one region per sample element, under its group, with the settings of its own attributes: its key range, its centre, its place in a round robin; what a group says holds for all its samples.", "quantifier": "every tree of elements and attributes, every order of the attributes, every outcome of the unstable sort", "why_tests_cant": "trees and orders are unbounded; the sort is unstable, so that tests see one of the orders only", "anchors": ["src/sfizz/import/foreign_instruments/DecentSampler.cpp:convertToSfz,emitRegionalOpcodes"]}
{"id": "C116", "title": "An edited region behaves as the edited instrument", "statement": "After any sequence of edits sent by message (key range, controller range, output), controller events and block size changes, a region answers a key exactly when the edited instrument says so, and rendering any block touches no memory out of bounds and every sounding voice reaches the host.", "quantifier": "Every loaded instrument (any regions, any effect headers), every history of edits, controller events and block size changes after the load, every key, every set of sounding voices, every number of frames up to the block size.", "why_tests_cant": "Edits act on tables built at load time: whether an edit is seen depends on the loaded instrument, the edit and all later events; a test fixes one of each, and reading past the table of outputs usually goes unnoticed.", "anchors": ["src/sfizz/Synth.cpp:finalizeSfzLoad", "src/sfizz/Synth.cpp:renderBlock", "src/sfizz/Synth.cpp:setSamplesPerBlock", "src/sfizz/SynthMessaging.cpp:dispatchMessage", "src/sfizz/Layer.cpp:updateCCState", "src/sfizz/SynthPrivate.h:getEffectBusesForOutput"]}
{"id": "C117", "title": "String resonance is finite, bounded and dies out", "statement": "The strings effect adds to each channel the sum of its resonators; for every number of strings it accepts and every input the result is a number, is bounded by a fixed multiple of the bound of the input, dies out when the input does, and does not depend on which processor instructions are available.", "quantifier": "Every number of strings 0 to 88, every sample rate from 10 kHz, every amount, every input stream, every number of lanes (1, 4, 8).", "why_tests_cant": "Infinite input streams; stability is a property of all futures. The packed code paths depend on the processor and differ from the plain one only for some numbers of strings.", "anchors": ["src/sfizz/effects/Strings.cpp:process", "src/sfizz/effects/Strings.cpp:setSampleRate", "src/sfizz/effects/impl/ResonantString.cpp:setResonanceFrequency", "src/sfizz/effects/impl/ResonantArraySSE.cpp:setup", "src/sfizz/effects/impl/ResonantArrayAVX.cpp:setup"]}
{"id": "C118", "title": "The reverb is stable", "statement": "Whatever is played through the reverb, for every kind of room and every legal value of its opcodes, an input within bounds gives an output within bounds for ever; once the input stops the output dies away exponentially. The reverb of a mix is the mix of the reverbs, silence gives silence, no memory outside its tables is read, the dry signal passes unchanged at the level asked for and the predelay is the one asked for.", "quantifier": "all input signals of any length, all rooms, all values of the opcodes, all sampling rates from 44.1 kHz to 1 MHz", "why_tests_cant": "A feedback loop with modulated delays may grow slowly, or only for some signal, room and sampling rate; a test listens to one for some seconds.", "anchors": ["src/sfizz/effects/Fverb.cpp:sfz::fx::Fverb", "src/sfizz/effects/gen/fverb.hxx:faustFverb::compute"]}
{"id": "C119", "title": "The level of a voice is the product of its gains", "statement": "Each frame a voice sends on has the level of the gain of its region, its volume, its amplitude modulation and the crossfades of its controllers, all at this frame of the block. The gain of the crossfades stays within 0 and 1, changes from frame to frame by at most one over the number of frames in five milliseconds, reaches the value of the controllers within the time of the smoothing plus sixteen frames, and a voice starts with the crossfade gain of the controllers at its start.", "quantifier": "all regions, all histories of messages before and during the note, all block sizes, all start delays and sample rates", "why_tests_cant": "The level is carried by smoothers and event lists over blocks of any size; a test compares a few frames of one history.", "anchors": ["src/sfizz/Voice.cpp:Voice::renderBlock", "src/sfizz/Voice.cpp:Voice::Impl::amplitudeEnvelope", "src/sfizz/Voice.cpp:Voice::Impl::applyCrossfades", "src/sfizz/Voice.cpp:Voice::Impl::resetCrossfades", "src/sfizz/Voice.cpp:Voice::startVoice"]}
{"id": "C120", "title": "A sample plays on without gaps over blocks", "statement": "The place in the sample that sounds at a frame is the sum of the playback speeds of all frames since the voice started: from one block to the next no frame of the sample is repeated or left out, whatever the sizes of the blocks and the frame at which the voice starts.", "quantifier": "all regions that play a sample, all start delays, all sequences of block sizes, all messages in between", "why_tests_cant": "The position is put together from counters that each block updates; only some combinations of delay and block show an error of one frame.", "anchors": ["src/sfizz/Voice.cpp:Voice::renderBlock", "src/sfizz/Voice.cpp:Voice::Impl::fillWithData", "src/sfizz/Voice.cpp:Voice::startVoice"]}
{"id": "C121", "title": "Bends and pitch modulation sound at their frames", "statement": "The pitch of a voice at a frame is the bend at this frame, in the range and steps of the region, plus the modulation of the pitch for this frame. A bend message for a frame is complete at this frame when no smoothing is asked for, and a bend that stands still gives its value from the first frame of the voice.", "quantifier": "all regions, all histories of messages, all start delays, all block sizes, all pitch modulations", "why_tests_cant": "The frame of a message and the first frame of the voice meet in one block in any order; a test tries one.", "anchors": ["src/sfizz/Voice.cpp:Voice::Impl::pitchEnvelope", "src/sfizz/Voice.cpp:Voice::Impl::fillWithData", "src/sfizz/Voice.cpp:Voice::startVoice", "src/sfizz/ModifierHelpers.h:linearEnvelope"]}
{"id": "C122", "title": "The stages of an envelope take the times asked for", "statement": "While a note is held, the envelope of its region stays at its start level for the delay, rises on a straight line at the speed of the attack time to full level, stays there for the hold time and decays exponentially at the speed of the decay time to the sustain level, where it remains; when the note is released, it decays exponentially from the level it has, then fades to nothing in 50 ms. Each level is the right one at its frame, whatever the sizes of the blocks.", "quantifier": "all times, levels and rates of the envelope, all start delays, sample rates, block sizes and frames of release", "why_tests_cant": "Which frame a stage ends on depends on rounding, on the block sizes and on where the release falls; a test compares a few frames.", "anchors": ["src/sfizz/ADSREnvelope.cpp:ADSREnvelope::getBlockInternal", "src/sfizz/ADSREnvelope.cpp:ADSREnvelope::updateValues", "src/sfizz/ADSREnvelope.cpp:ADSREnvelope::startRelease"]}
{"id": "C123", "title": "Conditions on MIDI values mean what the numbers say", "statement": "A region with lovel/hivel, loccN/hiccN, start_loccN/start_hiccN, lochanaft/hichanaft, lopolyaft/hipolyaft, lobend/hibend or sustain_lo/sostenuto_lo reacts to an integer MIDI value exactly if the value lies between the numbers written (the last ones, or the defaults), although both are converted to float first; every high definition value between 0 and 1 is treated as exactly one MIDI number, so that regions sharing out the velocities leave no gap and never overlap.", "quantifier": "all lists of these opcodes with integer numbers, all integer MIDI values, all floats from 0 to 1, all states of the layer and of the MIDI state", "why_tests_cant": "Tests try a few values; that rounding of n/127 and of the float below (n+1)/127 never moves a value over a bound has to hold for all pairs of numbers and for about 10^9 floats between them.", "anchors": ["src/sfizz/SfzHelpers.h:normalize7Bits, normalizeBend", "src/sfizz/Defaults.h:OpcodeSpec::normalizeInput", "src/sfizz/Defaults.cpp:loVel, hiVel, loCC, hiCC, loBend, hiBend", "src/sfizz/Region.cpp:parseOpcode", "src/sfizz/Layer.cpp:registerNoteOn, updateCCState, registerPitchWheel"]}
{"id": "C124", "title": "Values come back as they were given", "statement": "A MIDI value looked up in a curve gives exactly the value of the point with its number, without interpolation and without loss; a percentage set by an opcode is reported by message as it was set.", "quantifier": "all curves of 128 floats and all MIDI values 0 to 127; all percentages", "why_tests_cant": "The product of a rounded quotient with its divisor can miss the integer by one bit, which would interpolate between two points; all values have to be covered.", "anchors": ["src/sfizz/Curve.h:evalNormalized, evalCC7", "src/sfizz/Defaults.h:denormalizeInput", "src/sfizz/SfzHelpers.h:normalize7Bits", "src/sfizz/SynthMessagingHelper.hpp:reply"]}
{"id": "C125", "title": "Random alternatives: exactly one plays", "statement": "Regions that differ only in lorand/hirand and whose bounds share 0 to 1 out among themselves: every note that a region without these opcodes would answer is answered by exactly one of them, whatever number is drawn.", "quantifier": "all numbers of alternatives, all bounds different as floats, all numbers drawn from 0 to 1 with both ends, all layer and MIDI states and notes", "why_tests_cant": "The draw is random; the case of the number 1 itself or of a bound hit exactly will not come up in a test.", "anchors": ["src/sfizz/Layer.cpp:registerNoteOn", "src/sfizz/Region.cpp:lorand, hirand", "src/sfizz/Synth.cpp:noteOnDispatch"]}
{"id": "C126", "title": "Filters and equalizers of a note obey key, velocity and modulation", "statement": "For every filter of a region, the cutoff heard at each frame of a note is the written cutoff moved by the sum of the cents asked for by random, key tracking, velocity tracking and modulation, limited to 20 kHz; resonance and gain move by their modulation; equalizer frequency and gain move in proportion to velocity and by modulation. The sound of a note passes the region's filters and then its equalizers in order, starting clean, independent of what the voice played before and of the cut into blocks; the same holds for filter and equalizer effects since their last reset.", "quantifier": "all filter and equalizer descriptions, keys, velocities, random draws, modulation values, numbers of filters, earlier contents of the filter objects, cuts into blocks, histories of effect resets and rate changes", "why_tests_cant": "a test picks a few keys, velocities and block sizes; the law must hold for every combination and every earlier history of the voice", "anchors": ["src/sfizz/FilterPool.cpp:FilterHolder", "src/sfizz/EQPool.cpp:EQHolder", "src/sfizz/Voice.cpp:filterStageMono", "src/sfizz/effects/Filter.cpp", "src/sfizz/effects/Eq.cpp"]}
{"id": "C127", "title": "Rounding does not detune a note however long it lasts", "statement": "With the arithmetic of float, the place in the sample heard at every frame of a note stays within a fixed small proportion of the exact sum of the playback speeds: for blocks of up to 1024 frames that each pass at least one frame of the sample, within one part in 4096 of the way played, after any number of blocks and whatever the memory addresses that choose between vector and scalar code.", "quantifier": "all sequences of playback speeds, numbers and sizes of blocks, buffer addresses, note lengths", "why_tests_cant": "rounding errors add up over millions of frames; a test renders a few seconds and compares with a tolerance", "anchors": ["src/sfizz/Voice.cpp:Voice::Impl::fillWithData", "src/sfizz/simd/HelpersSSE.cpp:cumsumSSE", "src/sfizz/SIMDHelpers.h:snippetSFZInterpolationCast"]}
{"id": "C128", "title": "LFOs and oscillators run at the frequency asked for, however long", "statement": "With the arithmetic of float, the phase of an LFO or oscillator after any number of frames is that of a frequency close to the one asked for, and an LFO with any positive frequency goes through its whole period.", "quantifier": "all increments and numbers of frames", "why_tests_cant": "the error shows only after minutes and only for slow LFOs", "anchors": ["src/sfizz/LFO.cpp:LFO::generatePhase", "src/sfizz/Wavetables.cpp:incrementAndWrap", "src/sfizz/MathHelpers.h:wrapPhase"]}
{"id": "C129", "title": "Oscillator notes sound as their mode says", "statement": "A note of an oscillator region is, for its whole length and whatever the blocks: one oscillator on both sides; or a unison, the sum of its oscillators, each detuned by its share in cents plus what modulates the detuning, placed from right to left with gains adding up to one and centred on the pitch of the note; or the product of oscillator and modulator; or an oscillator whose pitch is moved by the modulator times its frequency. It starts at the phase asked for and nothing outside of the waveform is read.", "quantifier": "all settings, pitches, modulations, notes before, block sizes", "why_tests_cant": "the sound is compared by ear or on short excerpts; phases and old state show only in combinations", "anchors": ["src/sfizz/Voice.cpp:Voice::Impl::fillWithGenerator", "src/sfizz/Voice.cpp:Voice::Impl::setupOscillatorUnison", "src/sfizz/Region.cpp:Region::getPhase", "src/sfizz/SynthMessaging.cpp"]}
{"id": "C130", "title": "Audio buffers behave like values, stay inside their memory and are reported exactly", "statement": "Whatever is done with audio buffers (made, resized, cleared, copied, moved, assigned, written, destroyed), wherever the allocator places them and whenever it fails: no operation touches memory that is not its own or frees memory twice; resizing keeps the elements that fit and adds zeros; a copy equals its source; no operation changes another buffer; a buffer begins at an aligned address and the aligned end that vector code may run to lies inside its memory; no memory is lost; and the number of buffers and of bytes the library reports are those in use.", "quantifier": "all histories of operations on any number of buffers, all sizes, element sizes and alignments the code allows, all answers of the allocator", "why_tests_cant": "Memory errors and wrong counts show only for particular addresses, sizes modulo the alignment and failures of the allocator, which tests do not control.", "anchors": ["src/sfizz/Buffer.h:Buffer", "src/sfizz/Buffer.h:BufferCounter", "src/sfizz/Synth.h:Synth::getAllocatedBytes"]}
{"id": "C131", "title": "The sound of a note does not depend on the block size", "statement": "Rendering the same note over the same stretch of time with the same modulations gives the same gain, pitch and place in the sample at every frame, whatever the sizes of the blocks the host asks for, also when messages that the region does not listen to arrive.", "quantifier": "all regions that play a sample, modulations as functions of time, settings of controllers and bend, and all pairs of ways to cut the same time into blocks", "why_tests_cant": "Hosts use any and varying block sizes; tests render a handful of fixed ones.", "anchors": ["src/sfizz/Voice.cpp: renderBlock, fillWithData, pitchEnvelope, amplitudeEnvelope, applyCrossfades", "src/sfizz/Smoothers.cpp: Smoother::process", "src/sfizz/ModifierHelpers.h: linearEnvelope"]}
{"id": "C132", "title": "The stages of a note's envelope follow its velocity and the controllers at its start", "statement": "The delay, attack, hold, decay and sustain of an ADSR envelope of a note are the values of the file plus the velocity of the note times the vel2 amounts plus, for each of the 512 controllers, its amount times the curve at the value last received before the note started; of several opcodes for one thing the last one counts. The note, held, then follows the envelope with these stages, in seconds at the sample rate, whatever the sizes of the blocks.", "quantifier": "All lists of envelope opcodes, all histories of MIDI messages with the messages of the block in order before the note, all velocities, curves, start frames and block sizes", "why_tests_cant": "A test fixes a handful of opcodes, controllers and velocities; the sum runs over every list of opcodes, any of 512 controllers and any history, and must hold through any cut into blocks.", "anchors": ["src/sfizz/EGDescription.h:getAttack,getDecay,getDelay,getHold,getRelease,getStart,getSustain", "src/sfizz/Region.cpp:parseEGOpcode", "src/sfizz/ADSREnvelope.cpp:reset,updateValues", "src/sfizz/modulations/sources/ADSREnvelope.cpp:init"]}
{"id": "C133", "title": "Samples are found whatever the case of their names and the direction of the slashes", "statement": "A sample whose path in the instrument differs from the path on disk by the case of letters or by backslashes is found, and the file that is loaded is one that the given path leads to when case is ignored; a path that exists exactly is used as given.", "quantifier": "All file systems without symbolic links, all root directories, all sample paths including dots and absolute ones", "why_tests_cant": "A test sets up one directory; the claim is about every tree of directories, every nesting and every spelling.", "anchors": ["src/sfizz/FilePool.cpp:checkSample", "src/sfizz/FilePool.cpp:checkSampleId", "src/sfizz/Region.cpp:parseOpcode"]}
{"id": "C134", "title": "Aftertouch modulates each note with the pressure on its own key", "statement": "A voice started by a note is modulated, where polyphonic aftertouch is a source, with the pressure messages of its own key only, frame by frame on straight lines between the messages; channel aftertouch gives all voices the messages of the channel. Voices started by controllers get none. Reset of all controllers sets the pressure to zero.", "quantifier": "All histories of MIDI messages, all keys and triggers, all block sizes", "why_tests_cant": "Independence from all other messages and keys is a statement about pairs of arbitrary histories; a test compares two.", "anchors": ["src/sfizz/modulations/sources/PolyAftertouch.cpp:generate", "src/sfizz/modulations/sources/ChannelAftertouch.cpp:generate", "src/sfizz/MidiState.cpp:polyAftertouchEvent,channelAftertouchEvent,getPolyAftertouchEvents", "src/sfizz/Synth.cpp:resetAllControllers"]}
{"id": "C135", "title": "The pan stage of a voice places every frame by its own setting", "statement": "While a note sounds, each frame of its sound is placed by the pan setting of its region plus the modulation at that frame (for stereo sounds: pan, then width, then position), following the law of equal power within the resolution of a table, for settings of any size; a sound in the centre comes out of both channels alike and at its own level, a steady sound with steady settings stays steady, and all this on every processor.", "quantifier": "every setting, every sequence of modulation values, every buffer of any length, mono and stereo", "why_tests_cant": "the settings and modulations are arbitrary numbers and sequences; a test compares a few positions on one processor", "anchors": ["src/sfizz/Voice.cpp: Voice::Impl::panStageMono, Voice::Impl::panStageStereo", "src/sfizz/Panning.cpp: pan, width, panLookup"]}
{"id": "C136", "title": "The JACK client passes on all MIDI messages", "statement": "The JACK client turns every MIDI message of a cycle into the call it stands for (all channels, a note of velocity 0 being the end of a note, the wheel centred), in order and with its time inside the cycle, then plays exactly as many frames as the cycle has; no message is lost and nothing outside of a message is read.", "quantifier": "every sequence of cycles, every number of messages in a cycle, every interference of other threads with the lock", "why_tests_cant": "which cycle meets a thread that holds the lock depends on the schedule; a test sees few schedules and few messages", "anchors": ["clients/jack_client.cpp: process", "clients/MidiHelpers.h: status, buildAndCenterPitch"]}
{"id": "C137", "title": "A MIDI file is rendered frame by frame", "statement": "The renderer of MIDI files gives the synthesizer every message of the file exactly once and in order, before the block its time falls into and with the delay of its frame in that block, whatever the block size and the rate; the sound lasts up to the end of the track or until it has decayed, and rendering ends.", "quantifier": "every file of one track, every block size and sample rate, every course of the power after the last event", "why_tests_cant": "the times of events and the block sizes are unbounded; a test renders a few files", "anchors": ["clients/sfizz_render.cpp: midiCallback, main", "external/fmidi/sources/fmidi/fmidi_mini.cpp: fmidi_player_tick, fmidi_seq_track_current_event"]}
{"id": "C138", "title": "Blocks agree with the single calls of the listener", "statement": "For every text a parser reads, the blocks handed to the listener are exactly the headers it was told about, in order, each with the opcodes it was told about until the next header, in order. All names of headers and opcodes consist of letters, digits and underscores, and are not empty. Every opcode outside of all headers is warned about.", "quantifier": "all texts, included files, definitions, include depths", "why_tests_cant": "The two ways of listening must agree for every text, with errors anywhere in it; a test compares them on a few files.", "anchors": ["src/sfizz/parser/Parser.cpp:Parser::flushCurrentHeader", "src/sfizz/parser/Parser.cpp:Parser::processHeader", "src/sfizz/parser/Parser.cpp:Parser::processOpcode", "src/sfizz/parser/ParserListener.h:ParserListener"]}
{"id": "C139", "title": "The beat number misses no beat", "statement": "For every frame of every cycle, the beat number is the last beat that the position in beats has reached, and an error of less than 1/131072 beat in the position never makes it one too small.", "quantifier": "all histories of tempo, signature, position and playing events, all block sizes", "why_tests_cant": "Being off by one happens only for positions a rounding error before a beat; a test tries a few tempos.", "anchors": ["src/sfizz/BeatClock.cpp:quantize", "src/sfizz/BeatClock.cpp:BeatClock::fillBufferUpTo", "src/sfizz/BeatClock.h:getRunningBeatNumber"]}
{"id": "C140", "title": "The envelopes and LFOs of a note are its own", "statement": "Over a whole note, each envelope and each LFO that modulates it gives exactly what a fresh one with the region's description gives when it starts with the note, is released with the note, and is asked for the same blocks; what the voice played before, the other notes and the other modulators change nothing.", "quantifier": "all histories of note starts, releases, cancelled releases, notes turned off, sample rate changes and blocks over all voices; all descriptions", "why_tests_cant": "a leftover of an earlier note shows only for particular sequences in one of many voices", "anchors": ["src/sfizz/modulations/sources/ADSREnvelope.cpp: ADSREnvelopeSource", "src/sfizz/modulations/sources/FlexEnvelope.cpp: FlexEnvelopeSource", "src/sfizz/modulations/sources/LFO.cpp: LFOSource", "src/sfizz/modulations/ModMatrix.cpp: initVoice, releaseVoice, cancelRelease", "src/sfizz/ADSREnvelope.cpp: reset, cancelRelease"]}
{"id": "C141", "title": "Modulations are exactly those the opcodes ask for", "statement": "After an instrument is loaded, each controller, envelope, LFO or pressure acts on a parameter of a region exactly if an opcode of that region names the two, through a single connection whose depth, curve, smoothing, step, dependency on velocity and modulation of depth are those given last; controllers 7, 10 and 11 act on amplitude, pan and amplitude by default exactly if no region of the instrument uses them; and the modulation matrix holds these connections and no others.", "quantifier": "all instruments: every number of regions, every list of opcodes of each region, every controller, modulator and parameter", "why_tests_cant": "The result depends on the whole list of opcodes in every order, with repetitions, and on all other regions of the instrument; a test loads a few fixed files.", "anchors": ["src/sfizz/Region.cpp:processGenericCc", "src/sfizz/Region.cpp:getOrCreateConnection", "src/sfizz/Synth.cpp:finalizeSfzLoad", "src/sfizz/Synth.cpp:setupModMatrix", "src/sfizz/modulations/ModMatrix.cpp:connect"]}
{"id": "C142", "title": "Random variations stay within their settings and use them evenly", "statement": "A random variation (amp_random, pitch_random, delay_random, fil_random, the random controllers 135 and 136, the random phase of an oscillator, *noise) is always between the bounds the setting gives, with the rounding of float; over any 2^32 consecutive draws every 32-bit number comes exactly once, so that every part of the setting gets its share; noise neither leaves full scale nor repeats itself nor copies one channel to the other before 2^32 numbers are drawn.", "quantifier": "every state of the generator, every number drawn, every setting whose difference is a float that is not subnormal, every run of draws", "why_tests_cant": "The generator has 2^32 states and the settings are arbitrary numbers: a test sees a few draws and cannot tell a rare value outside of the bounds, a short cycle or a bias.", "anchors": ["src/sfizz/MathHelpers.h: fast_rand, fast_real_distribution, fast_gaussian_generator", "src/sfizz/RegionStateful.cpp: baseVolumedB, regionDelay, basePitchVariation", "src/sfizz/Voice.cpp: fillWithGenerator", "src/sfizz/Region.cpp: getPhase", "src/sfizz/MidiState.cpp: noteOnEvent"]}
{"id": "C143", "title": "Shaped stages of flexible envelopes", "statement": "A stage of an eg with a shape (egN_shapeX) goes from the level before to its own level along the curve asked for: it starts and ends exactly at these levels, never turns back, stays on the proper side of the straight line (below for positive shapes, above for negative), differs from the power curve asked for by at most one step of the 128-point table, and each point follows the curve of the shape it was last given, whichever points were shaped, copied or destroyed before, points of one shape sharing a single curve that is freed once unused.", "quantifier": "every shape, every time within the stage, every history of creating, copying, shaping and destroying points and cleaning the shared curves", "why_tests_cant": "The shape is any real number and time is continuous; the sharing of curves depends on the whole history of the points, of all instruments in the process, with weak references.", "anchors": ["src/sfizz/FlexEGDescription.cpp:FlexEGPoint::setShape", "src/sfizz/FlexEGDescription.cpp:FlexEGs::clearUnusedCurves", "src/sfizz/FlexEGDescription.cpp:getShapeCurve", "src/sfizz/Curve.h:evalNormalized"]}
{"id": "C144", "title": "Numbers with a fraction in opcode values are read as written", "statement": "An opcode whose value begins with a decimal number - an optional sign, digits with an optional point, an optional exponent introduced by a small e with an optional sign and digits - takes exactly the number so written, whatever text follows as long as it does not continue the number; and nothing else is ever read as a number: whenever a value is found the text begins with that number, written in that way up to where it ends. A value that begins otherwise is not read and the default applies. (Text right after the number beginning with the letter e spoils it, which is recorded as a violation.)", "quantifier": "every number text and every following text; every text from which a value is read", "why_tests_cant": "The texts are unbounded and every combination of sign, point, exponent and trailing text matters", "anchors": ["src/sfizz/utility/StringViewHelpers.h:readLeadingFloat", "src/sfizz/Opcode.cpp:readFloat"]}
{"id": "C145", "title": "Modulation opcodes act on the modulation their name tells", "statement": "Every opcode of a region which modulates something - a parameter by a controller (depth, curve, step, smoothing), a parameter by a numbered LFO or envelope, the depth of such a modulation by a controller, the settings of an LFO, the pitch, cutoff and volume by the envelopes and LFOs of the first version with velocity and aftertouch - acts on exactly the modulation that its name tells, with the number of the filter, equalizer, LFO, envelope and controller written in it and the value given; no other opcode acts on it, so that the depth in the region is the one given last, whatever the other opcodes are.", "quantifier": "all names built from the 14 parameters, numbers, modulators, words of controllers; all texts as values; all lists of opcodes of a region", "why_tests_cant": "There are hundreds of names with arbitrary numbers, recognised by one switch over hashes; a test tries a few and cannot show that no other name reaches the same modulation.", "anchors": ["src/sfizz/Region.cpp: Region::parseOpcode, parseLFOOpcode, parseEGOpcode, parseLFOOpcodeV2, parseEGOpcodeV2, processGenericCc", "src/sfizz/Defaults.cpp"]}
{"id": "C146", "title": "Limits of polyphony groups", "statement": "After loading an instrument, the number of voices a polyphony group may play is the one last said in the file for that group: by a group header (with the settings of the master header in force) that gives group and polyphony, or by a region with both; a group that is only named has 256, and groups never named do not exist except group 0.", "quantifier": "all instrument files: all orders of headers and opcodes, all regions, all group numbers", "why_tests_cant": "the limit depends on the whole sequence of headers and on inheritance from master and group headers, so on every file", "anchors": ["src/sfizz/Synth.cpp: handleGroupOpcodes, buildRegion", "src/sfizz/VoiceManager.cpp: ensureNumPolyphonyGroups, setGroupPolyphony, reset"]}
{"id": "C147", "title": "The keys, key-switches and controllers reported in use are those of the instrument", "statement": "After loading an instrument, the messages /key/slots, /sw/last/slots and /cc/slots report exactly the keys in the range of some region, the keys that select a region as last key-switch, and the controllers that some region uses for a modulation or a condition (with volume, pan and expression, which every instrument reacts to).", "quantifier": "every instrument file (key and key-switch slots), every list of regions with any modulation opcodes and every controller (controller slots)", "why_tests_cant": "A test loads some instruments; the report must be right for any text, any number of regions and any order of opcodes.", "anchors": ["src/sfizz/Synth.cpp:finalizeSfzLoad", "src/sfizz/Synth.cpp:collectUsedCCsFromRegion", "src/sfizz/Synth.cpp:collectUsedCCsFromModulations", "src/sfizz/Synth.cpp:collectAllUsedCCs", "src/sfizz/SynthMessaging.cpp:/key/slots"]}
{"id": "C148", "title": "The controllers reported as changed are those that were sent", "statement": "The message /cc/changed reports exactly the controllers sent since the last block ended, and /cc/changed~ those sent during the block before; no controller whose value changed in a block is left out.", "quantifier": "every history of API calls, with blocks of any length between them, and every controller", "why_tests_cant": "Blocks and events interleave in unboundedly many ways; a test fixes one.", "anchors": ["src/sfizz/Synth.cpp:performHdcc", "src/sfizz/Synth.cpp:renderBlock", "src/sfizz/Synth.cpp:resetAllControllers", "src/sfizz/SynthMessaging.cpp:/cc/changed"]}
{"id": "C149", "title": "The exported document of names is well-formed XML and tells each named controller and key", "statement": "Exporting the names of the loaded instrument (sfizz_export_midnam) gives a well-formed XML document whatever characters the names contain. A reader finds in it exactly the controllers below 128 that have a name, with this name, and those in use that have none, named by their number, each once; exactly the keys and key-switches that have a name, with these names; and the name of the model asked for. The name of a key-switch is the one given by the last region about it that gives one.", "quantifier": "every set of names, of any length and any characters that XML can hold, every set of controllers in use, every model name, every list of regions", "why_tests_cant": "the text depends on arbitrary names: escaping must be right for every character in every position, and a test can only try some; well-formedness is about the whole document", "anchors": ["src/sfizz/Synth.cpp:exportMidnam", "src/sfizz/Synth.cpp:setKeyswitchLabel", "src/external/pugixml/src/pugixml.cpp:text_output_escaped", "src/external/pugixml/src/pugixml.cpp:node_output"]}
{"id": "C150", "title": "The tracks of a MIDI file are played together in time", "statement": "When a MIDI file with several tracks is rendered, the events of all tracks up to their ends are played, each exactly once, those of one track in their order, all in the order of their places in ticks (at the same tick, lower tracks first); and each at the time that the tempo changes of all tracks up to it give. The synthesizer gets each message before the block its time falls into, with the delay of its frame in that block.", "quantifier": "All files of formats 0 and 1 (any number of tracks, any events and deltas, any division in ticks per quarter note or per second), all sample rates and block sizes.", "why_tests_cant": "The number of interleavings of tracks and tempo changes is unbounded; tests render a few files.", "anchors": ["external/fmidi/sources/fmidi/fmidi_mini.cpp:fmidi_seq_next_event", "external/fmidi/sources/fmidi/fmidi_mini.cpp:fmidi_seq_next_track", "external/fmidi/sources/fmidi/fmidi_mini.cpp:fmidi_seq_rewind", "clients/sfizz_render.cpp:midiCallback"]}
{"id": "C151", "title": "MIDI files are read as they were written", "statement": "A standard MIDI file that any program has written is read by the renderer with exactly the tracks, events, times and data that were written into it, whether or not status bytes are left out, and each of its messages reaches the synthesizer exactly once and at its time. Reading ends for every sequence of bytes, also of broken files. Of a file that is cut off all events before the cut are read.", "quantifier": "all files of any number of tracks and events; for termination all byte sequences", "why_tests_cant": "There are infinitely many files and sequences of events; tests read a few.", "anchors": ["external/fmidi/sources/fmidi/fmidi_mini.cpp: fmidi_smf_mem_read, fmidi_smf_read_contents, fmidi_read_event", "clients/sfizz_render.cpp: main"]}
{"id": "C152", "title": "A multi-channel audio buffer is a table of samples with silence around it", "statement": "A buffer of several channels shows, after whatever was done with it, in each channel the samples last written there and zero where nothing was written; resizing keeps the samples that fit and adds zeros, a resize that fails changes nothing, and whoever reads a little before the first or after the last frame, as the sample interpolators do, finds silence. No operation touches memory outside the buffer.", "quantifier": "all histories of constructing, adding channels, resizing (with any answers of the allocator), clearing, resetting, writing, and moving, for any maximal number of channels and any space kept around the frames", "why_tests_cant": "The contents depend on the whole history of sizes and on which allocations fail, and stale samples show only in memory past the end, which tests do not look at.", "anchors": ["src/sfizz/AudioBuffer.h: AudioBuffer::resize, AudioBuffer::addChannels, AudioBuffer::getSpan, AudioBuffer::clear, AudioBuffer::reset", "src/sfizz/Buffer.h: Buffer::resize", "src/sfizz/FilePool.h: FileAudioBuffer"]}
{"id": "C153", "title": "C++ objects and C references share a synthesizer safely", "statement": "A synthesizer lives exactly as long as a C++ object or a reference of the C interface owns it: wrapping adds an owner, moving an object hands its synthesizer over and leaves the source empty, overwriting or ending an object gives it up, moving an object onto itself changes nothing. No allowed call touches a synthesizer that was deleted, each is deleted once, and none is left when all owners are gone.", "quantifier": "all histories of creating, referencing, freeing, wrapping, constructing, moving, assigning and destroying any number of synthesizers and objects", "why_tests_cant": "The owners at any time depend on the whole history over both interfaces; a wrong count shows only as a leak or as a use after deletion much later.", "anchors": ["src/sfizz/sfizz.cpp: Sfizz::Sfizz, Sfizz::~Sfizz, Sfizz::operator=", "src/sfizz/sfizz_wrapper.cpp: sfizz_create_synth, sfizz_add_ref, sfizz_free", "src/sfizz/sfizz_private.hpp: sfizz_synth_t"]}
{"id": "C154", "title": "No request for a sample gets lost between the notes and the loader", "statement": "A request for a sample made while fewer than 256 are outstanding is accepted at once; it is refused only if at least 256 accepted requests have not been taken. Every accepted request is taken by the dispatching thread exactly once: whenever that thread sleeps and no request is being made, none is left over, and left to itself it takes all of them. The threads never wait for each other in vain, requests are taken in the order in which they were made, and destroying the pool makes the dispatching thread end.", "quantifier": "every number of requesting threads, every number of requests, and every interleaving of the atomic operations of the queue and the semaphore", "why_tests_cant": "A lost wakeup or an overwritten slot needs a particular interleaving of several threads; tests run a few of them.", "anchors": ["src/sfizz/FilePool.cpp:FilePool::getFilePromise", "src/sfizz/FilePool.cpp:FilePool::dispatchingJob", "src/sfizz/RTSemaphore.cpp:RTSemaphore::wait", "external/atomic_queue/include/atomic_queue/atomic_queue.h:AtomicQueueCommon::try_push", "external/atomic_queue/include/atomic_queue/atomic_queue.h:AtomicQueueCommon::try_pop"]}
{"id": "C155", "title": "Every background job is run", "statement": "Every job given to the pool of loading threads is run exactly once, jobs are begun in the order they were given, no thread sleeps on while a job waits, and when the pool is destroyed the jobs still waiting are run first and all its threads end.", "quantifier": "Every number of threads and jobs, every interleaving of giving jobs, waking, sleeping and running, every spurious wakeup and every moment of destruction", "why_tests_cant": "A lost wakeup shows only in the few instants between looking at the queue and going to sleep, which tests cannot schedule.", "anchors": ["external/threadpool/ThreadPool.h:ThreadPool::enqueue", "external/threadpool/ThreadPool.h:ThreadPool::ThreadPool", "external/threadpool/ThreadPool.h:ThreadPool::~ThreadPool", "src/sfizz/FilePool.cpp:FilePool::dispatchingJob"]}
{"id": "C156", "title": "Synthesizers share their loading threads safely", "statement": "All synthesizers that exist at a time in a process have the same pool of loading threads, whichever threads create and destroy them and when, and creating synthesizers from several threads is free of data races.", "quantifier": "Every number of threads and every interleaving of creating and destroying synthesizers", "why_tests_cant": "Two pools or a race appear only when several synthesizers are created within the same few instructions.", "anchors": ["src/sfizz/FilePool.cpp:globalThreadPool", "src/sfizz/FilePool.cpp:FilePool::FilePool"]}
{"id": "C157", "title": "The beginning of every sample is in memory", "statement": "After every call, exactly the samples of the loaded instrument are in memory: each up to the preload size past the greatest offset its notes start at, or in full if the instrument asks for it; and a sample counts as complete, so that its notes read nothing from the disk, exactly when all of it is in memory.", "quantifier": "Every history of loads, reloads of edited files, failed loads and changes of the preload size, every set of samples with every length and offset", "why_tests_cant": "What is in memory depends on the whole history of reloads and settings, and what is missing is heard only when the disk is slow.", "anchors": ["src/sfizz/FilePool.cpp:FilePool::preloadFile", "src/sfizz/FilePool.cpp:FilePool::setPreloadSize", "src/sfizz/FilePool.cpp:FilePool::setRamLoading", "src/sfizz/FilePool.cpp:FilePool::removeUnusedPreloadedData", "src/sfizz/Synth.cpp:Synth::Impl::prepareSfzLoad", "src/sfizz/Synth.cpp:Synth::Impl::finalizeSfzLoad", "src/sfizz/Synth.cpp:Synth::setPreloadSize"]}
{"id": "C158", "title": "Embedded samples are what is heard", "statement": "After loading an instrument, a region plays the sample embedded in the instrument under the name it gives, or else the file of this name, forwards or backwards as it says, and regions are dropped only when there is neither; also when the file was edited and loaded again.", "quantifier": "Every instrument with every embedded sample, every set of files and every history of loads and edits", "why_tests_cant": "What is heard depends on what earlier loads left in memory; tests load a file once.", "anchors": ["src/sfizz/Synth.cpp:Synth::Impl::handleSampleOpcodes", "src/sfizz/Synth.cpp:Synth::Impl::finalizeSfzLoad", "src/sfizz/FilePool.cpp:FilePool::loadFromRam", "src/sfizz/FilePool.cpp:FilePool::checkSampleId", "src/sfizz/FilePool.cpp:FilePool::loadFile", "src/sfizz/FilePool.cpp:FilePool::getFilePromise"]}
{"id": "C159", "title": "A controller starts exactly the regions it should", "statement": "When a controller value is sent (as MIDI, as automation, or as the bend and aftertouch controllers), a region with start_loccN/start_hiccN is started by it exactly if the new value lies in its trigger range, differs from the value the controller had before (polyphonic aftertouch excepted, which must be for one of the region's keys), the random draw lies in its random range, its turn in the sequence has come, and all its other conditions (controllers, this message included, bend, aftertouch, program, key-switches, previous key) hold for the last values received.", "quantifier": "every instrument, every history of calls, every controller and value, every region in whatever order", "why_tests_cant": "The decision depends on the whole history of messages through a dozen remembered conditions and on the order in which regions are served; tests try a few messages.", "anchors": ["src/sfizz/Layer.cpp:Layer::registerCC", "src/sfizz/Layer.cpp:Layer::isSwitchedOn", "src/sfizz/Synth.cpp:Synth::Impl::ccDispatch", "src/sfizz/Synth.cpp:Synth::Impl::performHdcc"]}
