import Verif.Render.Level

/-!
C119: the level of a voice.

Everywhere below, `Midi.run pre` is the MIDI state when the voice starts, for any history `pre` of MIDI calls; the blocks that follow
come with the messages that arrive for them (in the first block: those after the start of the voice).
-/
namespace Verif.Render
open Verif.Midi (Starts)

/-- A voice started at frame `delay` of a block, rendered block after block. -/
def played (c : Const) (pre : List Midi.Op) (delay extra : Nat) (bs : List (List Midi.Op × Block)) : Option (List Out) :=
  session c (Midi.run pre) (start c (Midi.run pre) delay extra) bs

/-! ### Everything is defined -/

theorem bounds (g : Midi.Event → ℚ) (l : List Midi.Event) : ∃ lo hi, ∀ e ∈ l, lo ≤ g e ∧ g e ≤ hi := by
  induction l with
  | nil => exact ⟨0, 0, by simp⟩
  | cons e l ih =>
    obtain ⟨lo, hi, h⟩ := ih
    refine ⟨min lo (g e), max hi (g e), fun x hx => ?_⟩
    rcases List.mem_cons.mp hx with rfl | hx
    · exact ⟨min_le_right _ _, le_max_right _ _⟩
    · exact ⟨le_trans (min_le_left _ _) (h x hx).1, le_trans (h x hx).2 (le_max_left _ _)⟩

theorem pitch_defined (c : Const) (ops : List Midi.Op) (hop : ∀ op ∈ ops, 0 ≤ op.delay) (s : Smoother.State) (mod : Option (Nat → ℚ)) (n : Nat) :
    ∃ r, pitchEnvelope c (Midi.run ops) s mod n = some r := by
  unfold pitchEnvelope
  have : ∃ xs, frames n (if 1 < c.bendStep then Envelope.quantEnvelope c.bendInCents (Midi.run ops).pitch n c.bendStep
      else Envelope.linearEnvelope c.bendInCents (Midi.run ops).pitch n) = some xs := by
    split
    · rename_i h
      obtain ⟨lo, hi, hb⟩ := bounds (fun e => Envelope.quantize c.bendStep (c.bendInCents e.value)) (Midi.vec (Midi.run ops) .pitch)
      obtain ⟨log, h1, _, h3, _⟩ := Envelope.quantized_envelope_partial ops hop .pitch c.bendInCents n c.bendStep lo hi (by linarith) hb
      have h1' : Envelope.quantEnvelope c.bendInCents (Midi.run ops).pitch n c.bendStep = some log := h1
      rw [h1']
      unfold frames
      refine ⟨(List.range n).map (fun i => (log i).getLastD 0), ?_⟩
      show (List.range n).mapM _ = _
      apply mapM_some
      intro i hi
      obtain ⟨y, hy, _⟩ := h3 i (List.mem_range.mp hi)
      rw [hy]; rfl
    · exact ⟨_, frames_linear _ _ (Midi.starts_run ops hop .pitch) n⟩
  obtain ⟨xs, hxs⟩ := this
  rw [hxs]
  exact ⟨_, rfl⟩

theorem session_defined (c : Const) (bs : List (List Midi.Op × Block)) (hb : Timed bs) :
    ∀ (ops : List Midi.Op) (_ : ∀ op ∈ ops, 0 ≤ op.delay) (v : Voice), ∃ outs, session c (Midi.run ops) v bs = some outs := by
  induction bs with
  | nil => intro ops _ v; exact ⟨[], rfl⟩
  | cons b bs ih =>
    intro ops hop v
    obtain ⟨new, b⟩ := b
    have hn := hb (new, b) (by simp)
    have e : new.foldl Midi.step (Midi.run ops) = Midi.run (ops ++ new) := by unfold Midi.run; rw [List.foldl_append]
    have e2 : Midi.advanceTime (Midi.run (ops ++ new)) b.size = Midi.run ((ops ++ new) ++ [.advance b.size]) := by
      simp only [Midi.run, List.foldl_append, List.foldl_cons, List.foldl_nil]; rfl
    have hall : ∀ op ∈ ops ++ new, 0 ≤ op.delay := by
      intro op ho
      rcases List.mem_append.mp ho with ho | ho
      · exact hop op ho
      · exact hn op ho
    have hr : ∃ r, render c (Midi.run (ops ++ new)) v b = some r := by
      unfold render
      simp only
      obtain ⟨p, hp⟩ := pitch_defined c (ops ++ new) hall v.bend b.pitch (b.size - min v.initialDelay b.size)
      rw [fadeInput_eq c _ (fun cc => Midi.starts_run (ops ++ new) hall (.cc cc))]
      split
      · exact ⟨_, rfl⟩
      · rw [hp]; exact ⟨_, rfl⟩
    obtain ⟨r, hr⟩ := hr
    obtain ⟨os, hos⟩ := ih (fun x hx => hb x (by simp [hx])) ((ops ++ new) ++ [.advance b.size])
      (by
        intro op ho
        rcases List.mem_append.mp ho with ho | ho
        · exact hall op ho
        · rw [List.mem_singleton.mp ho]; exact le_refl _) r.2
    refine ⟨r.1 :: os, ?_⟩
    simp only [session]
    rw [e, hr]
    simp only [Option.bind_some]
    rw [e2, hos]
    rfl

/-- **C119, rendering is defined.** Whatever the history of messages, the blocks, the modulations and the region's settings: rendering completes, every
frame of every buffer being written. -/
theorem rendering_defined (c : Const) (pre : List Midi.Op) (hpre : ∀ op ∈ pre, 0 ≤ op.delay) (delay extra : Nat)
    (bs : List (List Midi.Op × Block)) (hb : Timed bs) : ∃ outs, played c pre delay extra bs = some outs :=
  session_defined c bs hb pre hpre _

/-! ### The gain is the product of its parts -/

theorem gainFrames_zero (c : Const) : c.gainFrames = 0 := by
  unfold Const.gainFrames Smoother.smoothFrames
  simp

theorem modulate_get (g : ℚ → ℚ) (mod : Option (Nat → ℚ)) (xs : List ℚ) (i : Nat) :
    (modulate g mod xs)[i]? = xs[i]?.map fun x => x * (mod.elim 1 fun f => g (f i)) := by
  unfold modulate
  cases mod with
  | none => simp
  | some f => simp

theorem amplitude_get (c : Const) (s : Smoother.State) (b : Block) (i : Nat) (hi : i < b.size) :
    (amplitudeEnvelope c s b).1[i]? = some (b.eg i * c.baseGain * (b.amplitude.elim 1 fun f => f i) * c.db2mag c.baseVolume *
      (b.volume.elim 1 fun f => c.db2mag (f i))) := by
  unfold amplitudeEnvelope
  simp only
  rw [Smoother.smoother_off _ (by rw [gainFrames_zero]; omega)]
  simp only [modulate_get, List.getElem?_map, List.getElem?_range hi, Option.map_some, id]
  congr 1
  ring

/-- **C119, the product.** In every frame of every block the gain is the product of the amplitude envelope, the gain of the region
and of the note, the amplitude modulation, the volume in decibels, the volume modulation in decibels, and the crossfade; nothing else
enters it, and apart from the crossfade each acts in its own frame. -/
theorem level_product (c : Const) (pre : List Midi.Op) (hpre : ∀ op ∈ pre, 0 ≤ op.delay) (delay extra : Nat)
    (bs : List (List Midi.Op × Block)) (hb : Timed bs) (outs : List Out) (h : played c pre delay extra bs = some outs)
    (k : Nat) (ops : List Midi.Op) (b : Block) (hk : bs[k]? = some (ops, b)) (i : Nat) (hi : i < b.size) :
    ∃ o x, outs[k]? = some o ∧ o.fade[i]? = some x ∧
      o.level[i]? = some (x * (b.eg i * c.baseGain * (b.amplitude.elim 1 fun f => f i) * c.db2mag c.baseVolume *
        (b.volume.elim 1 fun f => c.db2mag (f i)))) := by
  have hm := Midi.starts_run pre hpre
  unfold played at h
  generalize start c (Midi.run pre) delay extra = v at h
  generalize Midi.run pre = m at h hm
  induction bs generalizing m v outs k with
  | nil => simp at hk
  | cons p bs ih =>
    obtain ⟨new, q⟩ := p
    simp only [session, Option.bind_eq_some_iff, Option.map_eq_some_iff] at h
    obtain ⟨r, hr, os, hos, rfl⟩ := h
    have hn := hb (new, q) (by simp)
    cases k with
    | zero =>
      simp only [List.getElem?_cons_zero, Option.some.injEq, Prod.mk.injEq] at hk
      obtain ⟨rfl, rfl⟩ := hk
      obtain ⟨f1, _, f3, _⟩ := render_fade (starts_heard (b := (new, q)) hm hn) hr
      have hlen : r.1.fade.length = q.size := by rw [f1, Smoother.smoother_length]; simp
      refine ⟨r.1, r.1.fade[i]'(by omega), rfl, List.getElem?_eq_getElem _, ?_⟩
      rw [f3, List.getElem?_zipWith, List.getElem?_eq_getElem (by omega), amplitude_get c _ _ i hi]
    | succ k => exact ih (fun x hx => hb x (by simp [hx])) _ k (by simpa using hk) _ _ hos (starts_next (b := (new, q)) hm hn _)

/-! ### The crossfade -/

/-- **C119, bounds.** When the gains of the crossfades are between 0 and 1, so is the smoothed one in every frame. -/
theorem fade_bounded (c : Const) (hc : c.Unit) (pre : List Midi.Op) (hpre : ∀ op ∈ pre, 0 ≤ op.delay) (delay extra : Nat)
    (bs : List (List Midi.Op × Block)) (hb : Timed bs) (outs : List Out) (h : played c pre delay extra bs = some outs) :
    ∀ o ∈ outs, ∀ x ∈ o.fade, 0 ≤ x ∧ x ≤ 1 := by
  have hm := Midi.starts_run pre hpre
  intro o ho x hx
  have hx' : x ∈ outs.flatMap (·.fade) := List.mem_flatMap.mpr ⟨o, ho, hx⟩
  rw [session_fade bs hm hb h] at hx'
  refine Smoother.smoother_stays_between _ _ 0 1 _ (fadeValue_unit hc _) ?_ x hx'
  clear h hx' hb hm
  generalize Midi.run pre = m
  induction bs generalizing m with
  | nil => intro p hp; simp [inputs] at hp
  | cons b bs ih =>
    intro p hp
    simp only [inputs, List.mem_cons] at hp
    rcases hp with rfl | hp
    · intro y hy
      obtain ⟨i, _, rfl⟩ := List.mem_map.mp hy
      exact fadeAt_unit hc _ _ _
    · exact ih _ p hp

/-- **C119, no jumps.** With crossfade gains between 0 and 1, however the controllers jump, the crossfade changes from one frame
to the next by at most 1 over the number of frames in 5 ms, also across blocks. -/
theorem fade_steps (c : Const) (hc : c.Unit) (n : Nat) (hn : 2 ≤ n) (hsf : c.fadeFrames = n) (pre : List Midi.Op)
    (hpre : ∀ op ∈ pre, 0 ≤ op.delay) (delay extra : Nat) (bs : List (List Midi.Op × Block)) (hb : Timed bs) (outs : List Out)
    (h : played c pre delay extra bs = some outs) (i : Nat) (x y : ℚ) (hx : (outs.flatMap (·.fade))[i]? = some x)
    (hy : (outs.flatMap (·.fade))[i + 1]? = some y) : |y - x| ≤ 1 / n := by
  have hm := Midi.starts_run pre hpre
  have e := session_fade bs hm hb h
  rw [hsf] at e
  rw [e] at hx hy
  have := Smoother.smoother_steps n hn 0 1 (fadeValue c (Midi.run pre)) (fadeValue_unit hc _) (inputs c (Midi.run pre) bs) ?_ ?_ (i + 1) x y
    (by rw [List.getElem?_cons_succ]; exact hx) (by rw [List.getElem?_cons_succ]; exact hy)
  · simpa using this
  · clear h e hx hy hb hm
    generalize Midi.run pre = m
    induction bs generalizing m with
    | nil => intro p hp; simp [inputs] at hp
    | cons b bs ih =>
      intro p hp
      simp only [inputs, List.mem_cons] at hp
      rcases hp with rfl | hp
      · intro hs u hu w hw
        obtain ⟨j, _, rfl⟩ := List.mem_map.mp hu
        obtain ⟨l, _, rfl⟩ := List.mem_map.mp hw
        rw [fadeAt_single hs, fadeAt_single hs]
      · exact ih _ p hp
  · clear h e hx hy hb hm
    generalize Midi.run pre = m
    induction bs generalizing m with
    | nil => intro p hp; simp [inputs] at hp
    | cons b bs ih =>
      intro p hp
      simp only [inputs, List.mem_cons] at hp
      rcases hp with rfl | hp
      · intro y hy
        obtain ⟨i, _, rfl⟩ := List.mem_map.mp hy
        exact fadeAt_unit hc _ _ _
      · exact ih _ p hp

/-- **C119, settling.** Once the controllers of the crossfades have been left alone for 5 ms (from the end of a block on), the
crossfade is the product of the gains for their last values. -/
theorem fade_settles (c : Const) (n : Nat) (hn : 2 ≤ n) (hsf : c.fadeFrames = n) (pre : List Midi.Op) (hpre : ∀ op ∈ pre, 0 ≤ op.delay)
    (delay extra : Nat) (b₁ : List Midi.Op × Block) (bs₁ bs₂ : List (List Midi.Op × Block)) (hb : Timed (b₁ :: bs₁ ++ bs₂))
    (hstill : ∀ b ∈ bs₂, ∀ op ∈ b.1, ∀ f ∈ c.fades, Leaves f.cc op) (outs₁ outs₂ : List Out)
    (h : played c pre delay extra (b₁ :: bs₁ ++ bs₂) = some (outs₁ ++ outs₂)) (hl : outs₁.length = (b₁ :: bs₁).length)
    (k : Nat) (hk : max 16 n ≤ k + 1) (y : ℚ) (hy : (outs₂.flatMap (·.fade))[k]? = some y) :
    y = (c.fades.map fun f => f.gain (ccValue (midiAfter (Midi.run pre) (b₁ :: bs₁)) f.cc)).prod := by
  have hm := Midi.starts_run pre hpre
  have e := session_fade _ hm hb h
  have hlen := fade_length _ hm hb h
  rw [hsf, inputs_append, smoother_run_append, List.flatMap_append] at e
  have e1 : (outs₁.flatMap (·.fade)).length = (Smoother.run n (start c (Midi.run pre) delay extra).fade (inputs c (Midi.run pre) (b₁ :: bs₁))).1.length := by
    have h1 : outs₁.map (fun o => o.fade.length) = (b₁ :: bs₁).map (fun b => b.2.size) := by
      have := congrArg (List.take outs₁.length) hlen.1
      rw [List.map_append, List.map_append] at this
      rw [List.take_append_of_le_length (by simp), List.take_append_of_le_length (by simp [hl])] at this
      rwa [List.take_of_length_le (by simp), List.take_of_length_le (by simp [hl])] at this
    rw [List.length_flatMap, h1]
    have : ∀ (bs : List (List Midi.Op × Block)) (m : Midi.State) (s : Smoother.State),
        (Smoother.run n s (inputs c m bs)).1.length = (bs.map fun b => b.2.size).sum := by
      intro bs
      induction bs with
      | nil => intro m s; rfl
      | cons b bs ih =>
        intro m s
        simp only [inputs, Smoother.run, List.length_append, ih, Smoother.smoother_length, List.length_map, List.length_range,
          List.map_cons, List.sum_cons]
    rw [this]
  have e2 := (List.append_inj e e1).2
  rw [e2] at hy
  have hm' : ∀ t, Starts (Midi.vec (midiAfter (Midi.run pre) (b₁ :: bs₁)) t) := starts_after hm _ (fun x hx => hb x (List.mem_append_left _ hx))
  refine Smoother.smoother_settles n hn _ _ _ _ ?_ k hk y hy
  refine quiet_inputs bs₂ hm' (fun x hx => hb x (List.mem_append_right _ hx)) ?_ hstill
  intro f hf
  refine ⟨?_, rfl⟩
  -- the state after at least one block has one event for each controller
  have : ∀ (bs : List (List Midi.Op × Block)) (b : List Midi.Op × Block) (m : Midi.State), (∀ t, Starts (Midi.vec m t)) → Timed (b :: bs) →
      ((midiAfter m (b :: bs)).cc f.cc).length = 1 := by
    intro bs
    induction bs with
    | nil => intro b m hm hb; exact (advance_cc (starts_heard hm (hb b (by simp))) _ _).1
    | cons q bs ih => intro b m hm hb; exact ih q _ (starts_next hm (hb b (by simp)) _) (fun x hx => hb x (by simp [hx]))
  exact this bs₁ b₁ _ hm (fun x hx => hb x (List.mem_append_left _ hx))

/-- **C119, from the start.** When no message moved the controllers of the crossfades in the block in which the voice starts, nor
later, the crossfade is right from the first frame on: the product of the gains for their values.
Missing: messages in the block of the start, before it, see `fade_start_violated`. -/
theorem fade_start_partial (c : Const) (pre new : List Midi.Op) (len : Nat) (hpre : ∀ op ∈ pre ++ .advance len :: new, 0 ≤ op.delay)
    (hnew : ∀ op ∈ new, ∀ f ∈ c.fades, Leaves f.cc op) (delay extra : Nat) (bs : List (List Midi.Op × Block)) (hb : Timed bs)
    (hstill : ∀ b ∈ bs, ∀ op ∈ b.1, ∀ f ∈ c.fades, Leaves f.cc op) (outs : List Out)
    (h : played c (pre ++ .advance len :: new) delay extra bs = some outs) :
    ∀ o ∈ outs, ∀ x ∈ o.fade, x = (c.fades.map fun f => f.gain (ccValue (Midi.run pre) f.cc)).prod := by
  have hm := Midi.starts_run _ hpre
  have hm0 := Midi.starts_run pre (fun op ho => hpre op (by simp [ho]))
  intro o ho x hx
  have hx' : x ∈ outs.flatMap (·.fade) := List.mem_flatMap.mpr ⟨o, ho, hx⟩
  rw [session_fade bs hm hb h] at hx'
  have hq : Quiet c (Midi.run (pre ++ .advance len :: new)) (ccValue (Midi.run pre)) := by
    have e : Midi.run (pre ++ .advance len :: new) = new.foldl Midi.step (Midi.advanceTime (Midi.run pre) len) := by
      unfold Midi.run; rw [List.foldl_append, List.foldl_cons]; rfl
    rw [e]
    exact quiet_heard (fun f hf => advance_cc hm0 len f.cc) hnew
  have hv : fadeValue c (Midi.run (pre ++ .advance len :: new)) = (c.fades.map fun f => f.gain (ccValue (Midi.run pre) f.cc)).prod := by
    rw [fadeValue_eq]
    congr 1
    apply List.map_congr_left
    intro f hf
    rw [(hq f hf).2]
  have := quiet_inputs bs hm hb hq hstill
  refine quiet_run (sf := c.fadeFrames) (inputs c (Midi.run (pre ++ .advance len :: new)) bs) this x ?_
  rw [← hv]
  exact hx'

/-! ### Cases -/

/-- Messages that leave the controller 1 alone. -/
example : Leaves 1 (.pitchBend 3 (1/2)) ∧ Leaves 1 (.cc 3 7 (1/2)) ∧ Leaves 1 (.noteOn 5 60 1 0 0) := by
  refine ⟨fun s => rfl, fun s => rfl, fun s => rfl⟩

/-- A region faded in by controller 1 over its whole range, and out by controller 2, at 4000 Hz: 20 frames in 5 ms. -/
def sampleRegion : Const where
  fadesIn := [⟨1, fun x => max 0 (min x 1)⟩]
  fadesOut := [⟨2, fun x => 1 - max 0 (min x 1)⟩]
  bendUp := 200
  bendDown := -200
  bendStep := 1
  bendSmooth := 0
  sampleRate := 4000
  db2mag := fun x => 1 + x / 20
  centsFactor := fun x => 1 + x / 1200
  baseGain := 1 / 2
  baseVolume := -10
  baseRatio := 1
  sample := { mode := .noLoop, loopCount := none, sampleCount := none, regionEnd := 1000, endMod := 0, infoEnd := 1000, offset := 0, xf := 0 }

theorem sample_unit : sampleRegion.Unit := by
  intro f hf x
  simp only [Const.fades, sampleRegion, List.cons_append, List.nil_append, List.mem_cons, List.not_mem_nil, or_false] at hf
  have h1 : 0 ≤ max 0 (min x 1) := le_max_left _ _
  have h2 : max 0 (min x 1) ≤ 1 := max_le zero_le_one (min_le_right _ _)
  rcases hf with rfl | rfl
  · exact ⟨h1, h2⟩
  · exact ⟨by linarith, by linarith⟩

theorem sample_frames : sampleRegion.fadeFrames = 20 := by decide +kernel

/-- A block of `n` frames. -/
def sampleBlock (n : Nat) : Block where
  size := n
  eg := fun i => 1 / (i + 1)
  amplitude := some fun _ => 1 / 2
  volume := none
  pitch := none
  loopStart := 0
  loopEnd := 0
  released := false
  loaded := 1000

/-- The product in a case: controller 1 up, controller 2 in the middle. -/
example : (played sampleRegion [.cc 0 1 1, .cc 0 2 (1/2), .advance 8] 0 0 [([], sampleBlock 3)]).map
    (fun outs => outs.map fun o => (o.fade, o.level)) = some [([1/2, 1/2, 1/2], [1/16, 1/32, 1/48])] := by decide +kernel

/-- The fade of a controller that jumps up and is left alone: 20 frames. -/
example : (played sampleRegion [] 0 0 [([.cc 0 1 1], sampleBlock 2), ([], sampleBlock 20)]).map
    (fun outs => outs.map fun o => (o.fade.getD 0 0, o.fade.getD 1 0, o.fade.getD 19 0)) =
      some [(1/20, 1/10, 0), (3/20, 1/5, 1)] := by decide +kernel

/-- C119 is violated when a controller moves in the block of the start: controller 1 is sent 0 for frame 97 and 1 for frame 98, and a
voice that starts at frame 99 of the same block starts at a fifth of its gain; with the same messages a block earlier it starts at its
full gain. The smoother is reset to the right value, but follows the controller from the first frame of the block on. -/
theorem fade_start_violated :
    (played sampleRegion [.cc 97 1 0, .cc 98 1 1] 99 0 [([], sampleBlock 128)]).map (fun outs => outs.map fun o => o.fade.getD 99 0) =
      some [1/5] ∧
    (played sampleRegion [.cc 97 1 0, .cc 98 1 1, .advance 128] 99 0 [([], sampleBlock 128)]).map
      (fun outs => outs.map fun o => o.fade.getD 99 0) = some [1] := by decide +kernel

end Verif.Render
