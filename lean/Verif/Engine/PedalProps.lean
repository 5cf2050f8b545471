import Verif.Engine.Pedals

/-! C15: the property theorems on pedals. The specification is at the head of `Verif.Engine.Pedals`. -/
namespace Verif.Engine

variable {c : Cfg}

/-- C15 for regions that listen to both pedals (`Pedalled`; the statement fails for regions that listen to one of them,
`sustain_alone_violated`). Whatever the history: a playing voice started by a key of a region that is not one-shot is in
its release as soon as its key is up, the sustain pedal is up and the sostenuto pedal is up. In particular it is released
on the very event, note-off or pedal, that makes this so. -/
theorem no_hanging_voice_partial (v0 : Nat → ℚ) (m : Midi.State) (sw : Option Int) (n : Nat) (gl sl : Nat → Nat)
    (h0 : ∀ k, m.cc k = [⟨0, v0 k⟩]) (ops : List Op) (s : E) (hr : run c (load c m sw n gl sl) ops = some s)
    (ho : InOrder ops) (i l : Nat) (hp : Plays s i) (hl : (s.vm.voices i).layer = some l)
    (ht : (s.vm.voices i).trig.type = .noteOn) (hreg : Pedalled (c.regions l)) (hone : (c.regions l).oneShot = false)
    (hkey : keyDown (s.vm.voices i).trig.number ops = false)
    (hsus : ¬ sustainDown c v0 (c.regions l) ops) (hsos : ¬ sostenutoDown c v0 (c.regions l) ops) :
    (s.vm.voices i).released = true := by
  have h := run_held v0 m sw n gl sl h0 ops s hr ho i hp.1 hp.2 ht l hl hreg
  unfold sustainDown at hsus
  unfold sostenutoDown at hsos
  have hoff : (s.vm.voices i).noteIsOff = true := by
    cases hn : (s.vm.voices i).noteIsOff with
    | true => rfl
    | false => rw [h.key hn] at hkey; cases hkey
  refine h.released hoff hone ?_
  have h1 := h.sustaining
  have h2 := h.sostenuto
  simp only [hsus, decide_false] at h1
  simp only [hsos, decide_false, iff_true] at h2
  simp [pedalsUp, h1, h2]

/-- The pedal held the voice: the sustain pedal is down, or the sostenuto pedal was pressed while the voice played
(a sostenuto pedal that was already down when the voice started does not hold it). -/
def heldByPedal (c : Cfg) (v0 : Nat → ℚ) (r : Layer.Region) (v : Voice) (ops : List Op) : Prop :=
  sustainDown c v0 r ops ∨ (sostenutoDown c v0 r ops ∧ v.sostenuto ≠ .previouslyDown)

theorem noteOffRec_early (e : Env) (d n : Int) (v : Voice) (hv : v.released = false) (hp : (noteOffRec e d n v).state = .playing)
    (hr : (noteOffRec e d n v).released = true) :
    (noteOffRec e d n v).noteIsOff = true ∧ ∀ l, (noteOffRec e d n v).layer = some l →
      (e.regions l).oneShot = false ∧ pedalsUp (e.regions l) (noteOffRec e d n v) = true := by
  have hf := (noteOffRec_frame e d n v).1
  rw [hf]
  unfold noteOffRec at hp hr ⊢
  cases hl : v.layer with
  | none => simp only [hl] at hr; rw [hv] at hr; cases hr
  | some l =>
    simp only [hl] at hp hr ⊢
    split at hp
    · rename_i hn; exact absurd hp hn
    · rename_i hst
      rw [if_neg hst] at hr ⊢
      split at hr
      · rename_i hc
        rw [if_pos hc]
        split at hr
        · have : v.released = true := hr
          rw [hv] at this; cases this
        · rename_i ho
          rw [if_neg ho]
          split at hr
          · rename_i hu
            rw [if_pos hu]
            have q := releaseRec_keeps (keyUp v) d
            refine ⟨q.2.2.2.1, fun k hk => ?_⟩
            cases hk
            exact ⟨by simpa using ho, by rw [pedalsUp_congr q.2.2.2.2.2.2.1 q.2.2.2.2.2.2.2.1]; exact hu⟩
          · have : v.released = true := hr
            rw [hv] at this; cases this
      · rw [hv] at hr; cases hr

theorem ccRec_early (e : Env) (d : Int) (cc : Nat) (x : ℚ) (v : Voice) (hv : v.released = false)
    (hr : (ccRec e d cc x v).released = true) :
    (ccRec e d cc x v).noteIsOff = true ∧ ∀ l, (ccRec e d cc x v).layer = some l →
      (e.regions l).oneShot = false ∧ pedalsUp (e.regions l) (ccRec e d cc x v) = true := by
  have hf := (ccRec_frame e d cc x v).1
  rw [hf]
  unfold ccRec at hr ⊢
  cases hl : v.layer with
  | none => simp only [hl] at hr; rw [hv] at hr; cases hr
  | some l =>
    simp only [hl] at hr ⊢
    split at hr
    · rw [hv] at hr; cases hr
    · rename_i hst
      rw [if_neg hst]
      split at hr
      · rw [hv] at hr; cases hr
      · rename_i hn
        rw [if_neg hn]
        split at hr
        · cases hr
        · rename_i hc
          rw [if_neg hc]
          have k := told_keeps (e.regions l) cc x v
          have q := releaseRec_keeps (told (e.regions l) cc x v) d
          rw [pedalRec_eq] at hr ⊢
          split at hr
          · rename_i hu
            rw [if_pos hu]
            simp only [Bool.and_eq_true, Bool.not_eq_true'] at hu
            refine ⟨q.2.2.2.1.trans hu.1.1, fun k hk => ?_⟩
            cases hk
            exact ⟨hu.1.2, by rw [pedalsUp_congr q.2.2.2.2.2.2.1 q.2.2.2.2.2.2.2.1]; exact hu.2⟩
          · rw [k.2.2.2.2.1, hv] at hr; cases hr

/-- The record of voice `i`, if released, was turned off or let go by key and pedals. -/
def LetGo (c : Cfg) (i : Nat) : Nat → Voice → Prop := fun j v => j = i → v.released = true → v.offed = true ∨
  (v.noteIsOff = true ∧ ∀ l, v.layer = some l → (c.regions l).oneShot = false ∧ pedalsUp (c.regions l) v = true)

theorem letGo_off (i : Nat) : OffClosed (LetGo c i) := by
  intro j v d _ _ _ _ _
  exact Or.inl (offRec_keeps v d).2.2.1

theorem letGo_start (i : Nat) (m : Midi.State) (T : EvType → Prop) : StartClosed c m T (LetGo c i) := by
  intro j l d t v _ _ hr
  rw [(startRec_keeps c.toEnv m l d t v).2.2.2.1] at hr; cases hr

theorem hdcc_letGo {s s' : E} {d : Int} {j : Nat} {x : ℚ} {b : Bool} {arg : Int} {i : Nat} (hv : (s.vm.voices i).released = false)
    (h121 : ¬ (b = true ∧ j = 121)) (hs : performHdcc c s d j x b arg = some s') : Hold (LetGo c i) s'.vm := by
  rcases performHdcc_cases hs with ⟨hb, hj, _⟩ | ⟨hb, hj, s1, g1, g2⟩ | ⟨_, s1, g1, g2⟩
  · exact absurd ⟨hb, hj⟩ h121
  · rw [g2]; exact Hold.resetAll g1
  · rw [g2]
    refine Hold.ccDispatch (letGo_off i) (letGo_start i _ _) ?_ g1
    have h0 : Hold (fun k v => k = i → v.released = false) s.vm := by
      intro k _ _ hk; rw [hk]; exact hv
    refine Hold.eachVoice' (voiceCC_own c.toEnv d j x) ?_ h0
    intro k v hv hp hk hr
    exact Or.inr (ccRec_early c.toEnv d j x v (hv ((ccRec_frame c.toEnv d j x v).2.2 hp) hk) hr)

/-- C15, "not before": a call other than a block (where the sound may end by itself) and other than the reset of all
controllers, that puts a playing voice into its release without turning it off, does so after the note-off of its key
and with no pedal holding the voice. -/
theorem not_released_early_partial (v0 : Nat → ℚ) (m : Midi.State) (sw : Option Int) (n : Nat) (gl sl : Nat → Nat)
    (h0 : ∀ k, m.cc k = [⟨0, v0 k⟩]) (ops : List Op) (op : Op) (s s' : E) (hr : run c (load c m sw n gl sl) ops = some s)
    (hs : step c s op = some s') (ho : InOrder (ops ++ [op])) (hop : ∀ f snd, op ≠ .render f snd) (h121 : ∀ d v, op ≠ .cc d 121 v)
    (i l : Nat) (hp : Plays s' i) (hl : (s'.vm.voices i).layer = some l)
    (ht : (s'.vm.voices i).trig.type = .noteOn) (hreg : Pedalled (c.regions l))
    (hb : (s.vm.voices i).released = false) (ha : (s'.vm.voices i).released = true) (hoff : (s'.vm.voices i).offed = false) :
    (s'.vm.voices i).noteIsOff = true ∧ ¬ heldByPedal c v0 (c.regions l) (s'.vm.voices i) (ops ++ [op]) := by
  have hrun : run c (load c m sw n gl sl) (ops ++ [op]) = some s' := by rw [run_snoc, hr]; exact hs
  have h := run_held v0 m sw n gl sl h0 _ s' hrun ho i hp.1 hp.2 ht l hl hreg
  have key : Hold (LetGo c i) s'.vm := by
    have hst : Hold (fun k v => k = i → v.released = false) s.vm := by
      intro k _ _ hk; rw [hk]; exact hb
    have hw : Hold (LetGo c i) s.vm := by
      intro k hk hp hki hr
      rw [hst k hk hp hki] at hr; cases hr
    cases op with
    | noteOn d n v =>
      have hs : hdNoteOn c s d n v = some s' := hs
      unfold hdNoteOn at hs
      refine Hold.noteOnDispatch (letGo_off i) (letGo_start i _ _) ?_ ?_ hs
      · intro j l d' w _ hr
        rw [(startRec_keeps c.toEnv _ l d' { type := .noteOn, number := n, value := v } w).2.2.2.1] at hr; cases hr
      · split <;> exact hw
    | noteOff d n v =>
      have hs : hdNoteOff c s d n v = some s' := hs
      unfold hdNoteOff at hs
      refine Hold.offs (letGo_off i) (noteOffDispatch_atoms _ _ _ _ _ _ hs) (letGo_start i _ _) ?_
      refine Hold.eachVoice' (Q := fun k v => k = i → v.released = false) (voiceNoteOff_own c.toEnv d n) ?_ ?_
      · intro k w hv hp hk hr
        exact Or.inr (noteOffRec_early c.toEnv d n w (hv ((noteOffRec_frame c.toEnv d n w).2.2 hp) hk) hp hr)
      · split <;> exact hst
    | cc d j v =>
      exact hdcc_letGo hb (fun hh => h121 d v (by rw [hh.2])) (show performHdcc c s d j v true (-1) = some s' from hs)
    | automate d j v => exact hdcc_letGo hb (by simp) (show performHdcc c s d j v false (-1) = some s' from hs)
    | pitchWheel d v =>
      have hs : hdPitchWheel c s d v = some s' := hs
      unfold hdPitchWheel at hs
      exact hdcc_letGo (by rw [eachLayer_vm]; exact hb) (by simp) hs
    | program p => cases hs; exact hw
    | channelAftertouch d v =>
      have hs : hdChannelAftertouch c s d v = some s' := hs
      unfold hdChannelAftertouch at hs
      exact hdcc_letGo (by rw [eachLayer_vm]; exact hb) (by simp) hs
    | polyAftertouch d n v =>
      have hs : hdPolyAftertouch c s d n v = some s' := hs
      unfold hdPolyAftertouch at hs
      exact hdcc_letGo (by exact hb) (by simp) hs
    | render f snd => exact absurd rfl (hop f snd)
    | allSoundOff => exact Hold.resetAll hs
    | setNumVoices n =>
      cases hs
      unfold setNumVoices
      split
      · exact hw
      · intro i _ hp
        simp [initVM] at hp
  rcases key i hp.1 hp.2 rfl ha with h1 | ⟨h1, h2⟩
  · rw [hoff] at h1; cases h1
  · refine ⟨h1, ?_⟩
    have hu := (h2 l hl).2
    simp only [pedalsUp, hreg.sustain, hreg.sostenuto, Bool.not_true, Bool.false_or, Bool.and_eq_true, Bool.not_eq_true',
      decide_eq_true_eq] at hu
    rintro (hd | ⟨hd, hn⟩)
    · rw [h.sustaining] at hu
      unfold sustainDown at hd
      simp [hd] at hu
    · unfold sostenutoDown at hd
      have hnu : (s'.vm.voices i).sostenuto ≠ .up := fun hh => by
        have := h.sostenuto.mp hh
        simp [hd] at this
      cases hsos : (s'.vm.voices i).sostenuto with
      | up => exact hnu hsos
      | sustaining => exact hu.2 hsos
      | previouslyDown => exact hn hsos

/-- A voice counts its key as up only when a note-off of that key was received. -/
theorem key_up_received (m : Midi.State) (sw : Option Int) (n : Nat) (gl sl : Nat → Nat) (ops : List Op) (s : E)
    (hr : run c (load c m sw n gl sl) ops = some s) (i : Nat) (hp : Plays s i) (hoff : (s.vm.voices i).noteIsOff = true) :
    ∃ d v, Op.noteOff d (s.vm.voices i).trig.number v ∈ ops := by
  let Q : List Op → Nat → Voice → Prop := fun ops _ v => v.noteIsOff = true → ∃ d x, Op.noteOff d v.trig.number x ∈ ops
  have key : ∀ ops s, run c (load c m sw n gl sl) ops = some s → Hold (Q ops) s.vm := by
    refine history_induction (P := fun ops s => Hold (Q ops) s.vm) (Hold.load m sw n gl sl) ?_
    intro ops s op s' _ ih hs
    have h1 : Hold (Q (ops ++ [op])) s.vm := by
      intro i hi hp hv
      obtain ⟨d, x, h⟩ := ih i hi hp hv
      exact ⟨d, x, by simp [h]⟩
    refine KeptBy.step (op := op) ⟨?_, ?_, ?_, ?_, ?_⟩ h1 hs
    · intro i v d _ h _ hv
      obtain ⟨_, _, _, k4, k5, _⟩ := offRec_keeps v d
      rw [k4] at hv; rw [k5]; exact h hv
    · intro i m l d t v hv
      rw [(startRec_keeps c.toEnv m l d t v).2.2.2.2.1] at hv; cases hv
    · rintro d n x rfl i v hv hp hoff
      obtain ⟨_, f2, f3⟩ := noteOffRec_frame c.toEnv d n v
      rw [f2]
      by_cases hvo : v.noteIsOff = true
      · exact hv (f3 hp) hvo
      · by_cases hn : v.trig.number = n
        · exact ⟨d, x, by simp [hn]⟩
        · exfalso
          unfold noteOffRec at hoff
          cases hl : v.layer with
          | none => simp only [hl] at hoff; exact hvo hoff
          | some l =>
            simp only [hl, hn, false_and, if_false, ite_self] at hoff
            exact hvo hoff
    · intro d k x i v hv hp hoff
      obtain ⟨_, f2, f3⟩ := ccRec_frame c.toEnv d k x v
      have f4 : (ccRec c.toEnv d k x v).noteIsOff = v.noteIsOff := by
        unfold ccRec
        cases v.layer with
        | none => rfl
        | some l =>
          simp only
          have hk := pedalRec_keeps (c.regions l) d k x v
          split
          · rfl
          split
          · rfl
          split
          · exact hk.2.2.2.1
          · exact hk.2.2.2.1
      rw [f2]; rw [f4] at hoff
      exact hv (f3 hp) hoff
    · rintro f snd sd rfl i v hv hp hoff
      have hfr : (renderRec c f sd v).noteIsOff = v.noteIsOff ∧ (renderRec c f sd v).trig = v.trig := by
        unfold renderRec aged
        cases sd.sampleEnded with
        | none => exact ⟨rfl, rfl⟩
        | some d => exact ⟨(offRec_keeps _ d).2.2.2.1, (offRec_keeps _ d).2.2.2.2.1⟩
      rw [hfr.2]; rw [hfr.1] at hoff
      exact hv ((renderRec_keeps (c := c) f sd v).2.2.2 hp).1 hoff
  exact key ops s hr i hp.1 hp.2 hoff

/-- One region on every key. -/
def plain : Cfg := demo [{}]

/-- What is shown of voice 0: playing, released. -/
def voiceZero (s : E) : List Bool := [decide ((s.vm.voices 0).state = .playing), (s.vm.voices 0).released]

/-- A concrete history for the theorems: the pedal goes down, the key comes up (held), the pedal comes up (released). -/
example : ((run plain (demoLoad plain 4 8) [.noteOn 0 60 1, .cc 1 64 1, .noteOff 2 60 0]).map voiceZero) = some [true, false] ∧
    ((run plain (demoLoad plain 4 8) [.noteOn 0 60 1, .cc 1 64 1, .noteOff 2 60 0, .cc 3 64 0]).map voiceZero) = some [true, true] := by
  decide +kernel

/-- The same with the sostenuto pedal, and with the pedal pressed before the key, which does not hold it. -/
example : ((run plain (demoLoad plain 4 8) [.noteOn 0 60 1, .cc 1 66 1, .noteOff 2 60 0]).map voiceZero) = some [true, false] ∧
    ((run plain (demoLoad plain 4 8) [.noteOn 0 60 1, .cc 1 66 1, .noteOff 2 60 0, .cc 3 66 0]).map voiceZero) = some [true, true] ∧
    ((run plain (demoLoad plain 4 8) [.cc 0 66 1, .noteOn 1 60 1, .noteOff 2 60 0]).map voiceZero) = some [true, true] := by
  decide +kernel

/-- The hypotheses of the theorems on that history. -/
example : InOrder [.noteOn 0 60 1, .cc 1 64 1, .noteOff 2 60 0, .cc 3 64 0] ∧ Pedalled (plain.regions 0) ∧
    keyDown 60 [.noteOn 0 60 1, .cc 1 64 1, .noteOff 2 60 0, .cc 3 64 0] = false ∧
    ¬ sustainDown plain (fun _ => 0) (plain.regions 0) [.noteOn 0 60 1, .cc 1 64 1, .noteOff 2 60 0, .cc 3 64 0] ∧
    sustainDown plain (fun _ => 0) (plain.regions 0) [.noteOn 0 60 1, .cc 1 64 1, .noteOff 2 60 0] := by
  refine ⟨?_, ⟨rfl, rfl, by decide, by decide⟩, by decide, by decide +kernel, by decide +kernel⟩
  intro pre op rest h d hd
  rcases pre with _ | ⟨a, _ | ⟨b, _ | ⟨e, _ | ⟨f, _ | ⟨g, pre⟩⟩⟩⟩⟩ <;> simp at h
  · obtain ⟨rfl, _⟩ := h; simp [delayOf] at hd; simp [blockTime, ← hd]
  · obtain ⟨rfl, rfl, _⟩ := h; simp [delayOf] at hd; simp [blockTime, timeAfter, delayOf, ← hd]
  · obtain ⟨rfl, rfl, rfl, _⟩ := h; simp [delayOf] at hd; simp [blockTime, timeAfter, delayOf, ← hd]
  · obtain ⟨rfl, rfl, rfl, rfl, _⟩ := h; simp [delayOf] at hd; simp [blockTime, timeAfter, delayOf, ← hd]

/-- A region that listens to the sustain pedal only (`sostenuto_sw=off`). -/
def sustainOnly : Cfg := demo [{ checkSostenuto := false }]

/-- C15 fails for a region with `sostenuto_sw=off`: the sustain pedal pressed after the key does not hold the voice ... -/
theorem sustain_alone_violated :
    ((run sustainOnly (demoLoad sustainOnly 4 8) [.noteOn 0 60 1, .cc 1 64 1, .noteOff 2 60 0]).map voiceZero) =
      some [true, true] := by decide +kernel

/-- ... and a voice started with the pedal down never stops: key up and all pedals up, it is not released. -/
theorem hanging_voice_violated :
    ((run sustainOnly (demoLoad sustainOnly 4 8) [.cc 0 64 1, .noteOn 1 60 1, .cc 2 64 0, .noteOff 3 60 0]).map voiceZero) =
      some [true, false] := by decide +kernel

end Verif.Engine
