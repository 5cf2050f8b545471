import Verif.Filter.Wrapper
import Mathlib.Analysis.SpecialFunctions.Pow.Real

/-!
# The filters and equalizers of a voice

Models how a note sets its filters and equalizers (`FilterPool.cpp`, `EQPool.cpp`), the control
curves of every block, and the chain of filters and equalizers in a voice
(`Voice::Impl::filterStageMono` and `filterStageStereo`, `Voice.cpp:1032-1065`).

Simplifications.  Numbers are real.  The filter class chosen by `Filter::Impl::getDsp`
(`SfzFilter.cpp:189-213`) is a parameter of the description.  The values that reach a note from
outside (controllers through their curves, the random draw, the modulation curves) are
parameters.  The three work buffers of `process` are available (C17 is about the pool).
-/

namespace Verif.VoiceFilter

open Verif.Filter

/-- `centsFactor` (`SfzHelpers.h:110-114`). -/
noncomputable def centsFactor (c : ℝ) : ℝ := (2 : ℝ) ^ (c / 1200)

/-- `Range::clamp` with the bounds of `Default::filterCutoff` (`Range.h`; `Defaults.cpp:101`). -/
noncomputable def clampCutoff (f : ℝ) : ℝ := min (max f 0) 20000

/-- A filter class (`sfzFilterDsp`, `SfzFilterImpls.hpp`), with its coefficients and memory. -/
structure Class where
  C : Type
  D : Type
  dsp : Dsp C D

/-- `FilterDescription` (`FilterDescription.h:15-26`).  `veltrackCC` lists, for every controller
of `fil_veltrack_onccN`, its value after the curve and the depth. -/
structure FilterDesc where
  cutoff : ℝ
  resonance : ℝ
  gain : ℝ
  keytrack : ℝ
  keycenter : ℤ
  veltrack : ℝ
  veltrackCC : List (ℝ × ℝ)
  random : ℝ
  kind : Class

/-- `FilterHolder::setup`, the base cutoff (`FilterPool.cpp:33-49`).  `u` is the draw of
`fast_real_distribution`, from 0 to 1. -/
noncomputable def baseCutoff (d : FilterDesc) (key : ℤ) (vel u : ℝ) : ℝ :=
  let b := d.cutoff
  let b := if d.random ≠ 0 then b * centsFactor (d.random * u) else b
  let b := b * centsFactor (d.keytrack * ((key - d.keycenter : ℤ) : ℝ))
  let veltrack := d.veltrackCC.foldl (fun v m => v + m.1 * m.2) d.veltrack
  let b := b * centsFactor (veltrack * vel)
  clampCutoff b

/-- One frame of the cutoff curve (`FilterPool.cpp:83-88`): no modulation at all when the target
is not connected. -/
noncomputable def cutoffAt (base : ℝ) : Option ℝ → ℝ
  | none => clampCutoff base
  | some m => clampCutoff (base * centsFactor m)

/-- One frame of any curve that adds its modulation: resonance and gain of a filter
(`FilterPool.cpp:90-96`), frequency, bandwidth and gain of an equalizer (`EQPool.cpp:63-73`). -/
def addAt (base : ℝ) : Option ℝ → ℝ
  | none => base
  | some m => base + m

/-- The modulation of one filter or equalizer at one frame: `ModMatrix::getModulation` of the
three targets. -/
structure Mods where
  freq : Option ℝ
  shape : Option ℝ
  gain : Option ℝ

/-- The controls of a filter at one frame (`FilterPool.cpp:33-96`). -/
noncomputable def filterCtl (d : FilterDesc) (key : ℤ) (vel u : ℝ) (m : Mods) : Ctl where
  cutoff := cutoffAt (baseCutoff d key vel u) m.freq
  q := addAt d.resonance m.shape
  gain := addAt d.gain m.gain

/-- `EQDescription` (`EQDescription.h:15-23`). -/
structure EqDesc where
  frequency : ℝ
  bandwidth : ℝ
  gain : ℝ
  vel2frequency : ℝ
  vel2gain : ℝ
  kind : Class

/-- The controls of an equalizer at one frame (`EQPool.cpp:32-73`). -/
def eqCtl (d : EqDesc) (vel : ℝ) (m : Mods) : Ctl where
  cutoff := addAt (d.frequency + vel * d.vel2frequency) m.freq
  q := addAt d.bandwidth m.shape
  gain := addAt (d.gain + vel * d.vel2gain) m.gain

/-- One place of the chain: a filter object of the voice, and its control curves from the next
frame on. -/
structure Slot where
  kind : Class
  holder : Holder kind.C kind.D
  ctl : ℕ → Ctl

/-- One block through one place. -/
def Slot.process (s : ℝ) (w : Slot) (b : List (List ℝ)) : Slot × List (List ℝ) :=
  let r := w.holder.process w.kind.dsp s w.ctl b
  (⟨w.kind, r.1, fun i => w.ctl (i + b.length)⟩, r.2)

/-- One block through the chain, in place (`Voice.cpp:1039-1045`, `1058-1064`). -/
def chainBlock (s : ℝ) : List Slot → List (List ℝ) → List Slot × List (List ℝ)
  | [], b => ([], b)
  | w :: ws, b =>
    let r := w.process s b
    let t := chainBlock s ws r.2
    (r.1 :: t.1, t.2)

/-- The blocks of a note, one after the other. -/
def chainPlay (s : ℝ) : List Slot → List (List (List ℝ)) → List Slot × List (List ℝ)
  | ws, [] => (ws, [])
  | ws, b :: bs =>
    let r := chainBlock s ws b
    let t := chainPlay s r.1 bs
    (t.1, r.2 ++ t.2)

/-- `FilterHolder::setup` and `EQHolder::setup` on the objects of a voice: whatever `old` held,
with the channels of the region (`FilterPool.cpp:29-31`, `59-60`). -/
def Slot.setup (kind : Class) (old : Holder kind.C kind.D) (ctl : ℕ → Ctl) : Slot :=
  ⟨kind, old.setup, ctl⟩

/-- What a note finds: the filter objects of the voice, and what reaches them. -/
structure FilterUse where
  desc : FilterDesc
  old : Holder desc.kind.C desc.kind.D
  draw : ℝ
  mods : ℕ → Mods

/-- See `FilterUse`. -/
structure EqUse where
  desc : EqDesc
  old : Holder desc.kind.C desc.kind.D
  mods : ℕ → Mods

/-- `Voice::startVoice` for the filters, then the equalizers (`Voice.cpp:510-516`). -/
noncomputable def startVoice (key : ℤ) (vel : ℝ) (fs : List FilterUse) (es : List EqUse) :
    List Slot :=
  fs.map (fun f => Slot.setup f.desc.kind f.old
      (fun i => filterCtl f.desc key vel f.draw (f.mods i)))
    ++ es.map (fun e => Slot.setup e.desc.kind e.old (fun i => eqCtl e.desc vel (e.mods i)))

end Verif.VoiceFilter
