import Verif.Range.Props
import Verif.SwapAndPop.Props
import Verif.CCMap.Props
import Verif.Controller.Props
import Verif.Base64.Props
import Verif.BitArray.Props
import Verif.Osc.Props
import Verif.Midi.Notes
import Verif.Engine.Props
import Verif.Engine.Triggering
import Verif.Engine.VoiceLife
import Verif.Engine.PedalProps
import Verif.Engine.OffGroups
import Verif.Engine.ReleasesNow
import Verif.Engine.OffExact
import Verif.Engine.Rings
import Verif.Opcode.Props
import Verif.Curve.Props
import Verif.BeatClock.Props
import Verif.Adsr.Props
import Verif.FlexEG.Props
import Verif.ModMatrix.Props
import Verif.ModMatrix.Keys
import Verif.Smoother.Props
import Verif.Envelope.Props
import Verif.Crossfade.Props
import Verif.Power.Props
import Verif.Lfo.Props
import Verif.Parser.Termination
import Verif.Parser.Print
import Verif.AudioReader.Props
import Verif.FilePool.Props
import Verif.FilePool.Clear
import Verif.SpinLock.Props
import Verif.BufferPool.Props
import Verif.BufferPool.Demand
import Verif.Memory.Props
import Verif.Metadata.Props
import Verif.Messages.Props
import Verif.Playback.Counts
import Verif.Loader.Keys
import Verif.Loader.Transpose
import Verif.Loader.Switches
import Verif.Loader.Sets
import Verif.Simd.Props
import Verif.Interp.Props
import Verif.Pan.Props
import Verif.Smoother.OnePole
import Verif.Engine.NotePoly
import Verif.Engine.Timer
import Verif.Region.Props
import Verif.Region.Gain
import Verif.Mixer.Model
import Verif.Mixer.Props
import Verif.Cleanup.Model
import Verif.Cleanup.Props
import Verif.Tuning.Model
import Verif.Tuning.Lemmas
import Verif.Tuning.Scl
import Verif.Tuning.Props
import Verif.Stretch.Model
import Verif.Stretch.Props
import Verif.Effects.Model
import Verif.Effects.Lemmas
import Verif.Effects.Blocks
import Verif.Effects.Props
import Verif.Effects.Clear
import Verif.Effects.Width
import Verif.Effects.Dynamics
import Verif.Effects.Energy
import Verif.Effects.Settings
import Verif.Filter.Model
import Verif.Filter.Recur
import Verif.Filter.Section
import Verif.Filter.Props
import Verif.Filter.Wrapper
import Verif.Filter.Mixing
import Verif.Filter.Small
import Verif.PerVoice.Props
import Verif.Controller.Resets
import Verif.Effects.Hold
import Verif.Reload.Model
import Verif.Reload.Props
import Verif.Reload.Told
import Verif.Wavetable.Model
import Verif.Wavetable.Lemmas
import Verif.Wavetable.Props
import Verif.Api.Props
import Verif.Import.Props
import Verif.Import.Preset
import Verif.Import.Keys
import Verif.Wavetable.Alias
import Verif.Wavetable.Content
import Verif.Wavetable.Shapes
import Verif.Edit.Props
import Verif.Strings.Props
import Verif.Reverb.Model
import Verif.Reverb.Gain
import Verif.Reverb.Fade
import Verif.Reverb.Traj
import Verif.Reverb.Lfo
import Verif.Reverb.Stable
import Verif.Reverb.Props
import Verif.Smoother.Arrive
import Verif.Render.Model
import Verif.Render.Level
import Verif.Render.Props
import Verif.Render.Clock
import Verif.Render.Pitch
import Verif.Render.Blocks
import Verif.Adsr.Seconds
import Verif.Adsr.Early
import Verif.Lfo.Hold
import Verif.BeatClock.Number
import Verif.Parser.Blocks
import Verif.Float32.Model
import Verif.Float32.Props
import Verif.MidiValue.Model
import Verif.MidiValue.Props
import Verif.MidiValue.Random
import Verif.VoiceFilter.Props
import Verif.VoiceFilter.Effect
import Verif.Drift.Props
import Verif.Generator.Props
import Verif.EgNote.Props
import Verif.FindSample.Props
import Verif.Controller.Aftertouch
import Verif.Pan.Stage
import Verif.Clients.Props
import Verif.Sources.Alone
import Verif.Engine.Heard
import Verif.Connections.Values
import Verif.Random.Props
import Verif.Shapes.Props
import Verif.Numbers.Props
import Verif.Modulations.Region
import Verif.Loader.Limits
import Verif.Slots.Props
import Verif.Slots.Changed
import Verif.Numbers.Booleans
import Verif.Wavetable.Between
import Verif.Names.Props
import Verif.Sequencer.Props
import Verif.MidiFile.Props
import Verif.AudioBuffer.Props
import Verif.MidiFile.Repairs
import Verif.Handles.Props
import Verif.Requests.Props
import Verif.Workers.Props
import Verif.Workers.Sharing
import Verif.Preload.Props
import Verif.Preload.Embedded
import Verif.Engine.ControllerTrigger
import Verif.Modulations.Stages
import Verif.Engine.ReleaseTrigger
import Verif.Engine.Turns
