import Verif.Engine.Hold
import Verif.Engine.Props

/-! C57 (age of voices) and C58 (a choked voice stays choked), for every history of calls. -/
namespace Verif.Engine

variable {c : Cfg}

/-! ### Specification -/

/-- Voice `i` plays. -/
def Plays (s : E) (i : Nat) : Prop := i < s.vm.size ∧ (s.vm.voices i).state = .playing

/-- The voice was started after the last block. -/
def Fresh (v : Voice) : Prop := v.age = 0 ∧ v.triggerDelay ≠ none

/-- The call renders a block of `n` frames. -/
def Renders (n : Nat) (op : Op) : Prop := 1 ≤ n ∧ ∃ snd, op = .render n snd

/-! ### Records -/

theorem ready_keeps (e : Env) (m : Midi.State) (l : Nat) (d : Int) (v : Voice) :
    (ready e m l d v).age = v.age ∧ (ready e m l d v).triggerDelay = v.triggerDelay ∧ (ready e m l d v).offed = v.offed ∧
    (ready e m l d v).released = false ∧ (ready e m l d v).noteIsOff = v.noteIsOff ∧ (ready e m l d v).trig = v.trig ∧
    (ready e m l d v).layer = v.layer ∧ (ready e m l d v).state = v.state := by
  unfold ready
  simp only
  split <;> split <;> exact ⟨rfl, rfl, rfl, rfl, rfl, rfl, rfl, rfl⟩

theorem startRec_keeps (e : Env) (m : Midi.State) (l : Nat) (d : Int) (t : Trig) (v : Voice) :
    (startRec e m l d t (cleared v)).age = 0 ∧ (startRec e m l d t (cleared v)).triggerDelay = some d ∧
    (startRec e m l d t (cleared v)).offed = false ∧ (startRec e m l d t (cleared v)).released = false ∧
    (startRec e m l d t (cleared v)).noteIsOff = false ∧ (startRec e m l d t (cleared v)).trig.type = t.type ∧
    (startRec e m l d t (cleared v)).layer = some l ∧ (startRec e m l d t (cleared v)).state = .playing := by
  unfold startRec
  obtain ⟨h1, h2, h3, h4, h5, h6, h7, h8⟩ := ready_keeps e m l d { timed e m l d (armed e m l t (cleared v)) with state := .playing }
  rw [h1, h2, h3, h4, h5, h6, h7, h8]
  exact ⟨rfl, rfl, rfl, rfl, rfl, rfl, rfl, rfl⟩

theorem offRec_keeps (v : Voice) (d : Int) : (offRec v d).age = v.age ∧ (offRec v d).triggerDelay = v.triggerDelay ∧
    (offRec v d).offed = true ∧ (offRec v d).noteIsOff = v.noteIsOff ∧ (offRec v d).trig = v.trig ∧
    (offRec v d).layer = v.layer ∧ (offRec v d).sustaining = v.sustaining ∧ (offRec v d).sostenuto = v.sostenuto ∧
    ((offRec v d).state = .playing → (offRec v d).released = true) := by
  unfold offRec releaseRec
  simp only
  split
  · rename_i h; exact ⟨rfl, rfl, rfl, rfl, rfl, rfl, rfl, rfl, fun hp => absurd hp h⟩
  · exact ⟨rfl, rfl, rfl, rfl, rfl, rfl, rfl, rfl, fun _ => rfl⟩

theorem releaseRec_keeps (v : Voice) (d : Int) : (releaseRec v d).age = v.age ∧ (releaseRec v d).triggerDelay = v.triggerDelay ∧
    (releaseRec v d).offed = v.offed ∧ (releaseRec v d).noteIsOff = v.noteIsOff ∧ (releaseRec v d).trig = v.trig ∧
    (releaseRec v d).layer = v.layer ∧ (releaseRec v d).sustaining = v.sustaining ∧ (releaseRec v d).sostenuto = v.sostenuto ∧
    ((releaseRec v d).state = .playing → v.state = .playing ∧ (releaseRec v d).released = true) := by
  unfold releaseRec
  split
  · rename_i h; exact ⟨rfl, rfl, rfl, rfl, rfl, rfl, rfl, rfl, fun hp => absurd hp h⟩
  · rename_i h; exact ⟨rfl, rfl, rfl, rfl, rfl, rfl, rfl, rfl, fun _ => ⟨by simpa using h, rfl⟩⟩

theorem noteOffRec_keeps (e : Env) (d n : Int) (v : Voice) : (noteOffRec e d n v).age = v.age ∧
    (noteOffRec e d n v).triggerDelay = v.triggerDelay ∧ (noteOffRec e d n v).offed = v.offed ∧
    ((noteOffRec e d n v).state = .playing → v.state = .playing ∧ (v.released = true → (noteOffRec e d n v).released = true)) := by
  unfold noteOffRec
  cases v.layer with
  | none => exact ⟨rfl, rfl, rfl, fun h => ⟨h, id⟩⟩
  | some l =>
    simp only
    have hk := releaseRec_keeps (keyUp v) d
    split
    · exact ⟨rfl, rfl, rfl, fun h => ⟨h, id⟩⟩
    split
    · split
      · exact ⟨rfl, rfl, rfl, fun h => ⟨h, id⟩⟩
      split
      · exact ⟨hk.1, hk.2.1, hk.2.2.1, fun h => ⟨(hk.2.2.2.2.2.2.2.2 h).1, fun _ => (hk.2.2.2.2.2.2.2.2 h).2⟩⟩
      · exact ⟨rfl, rfl, rfl, fun h => ⟨h, id⟩⟩
    · exact ⟨rfl, rfl, rfl, fun h => ⟨h, id⟩⟩

theorem voiceSustain_keeps (r : Layer.Region) (v : Voice) (cc : Nat) (x : ℚ) :
    (voiceSustain r v cc x).age = v.age ∧ (voiceSustain r v cc x).triggerDelay = v.triggerDelay ∧
    (voiceSustain r v cc x).offed = v.offed ∧ (voiceSustain r v cc x).state = v.state ∧
    (voiceSustain r v cc x).released = v.released ∧ (voiceSustain r v cc x).noteIsOff = v.noteIsOff ∧
    (voiceSustain r v cc x).trig = v.trig ∧ (voiceSustain r v cc x).layer = v.layer ∧
    (voiceSustain r v cc x).sostenuto = v.sostenuto := by
  unfold voiceSustain
  split
  · split <;> exact ⟨rfl, rfl, rfl, rfl, rfl, rfl, rfl, rfl, rfl⟩
  · exact ⟨rfl, rfl, rfl, rfl, rfl, rfl, rfl, rfl, rfl⟩

theorem voiceSostenuto_keeps (r : Layer.Region) (v : Voice) (cc : Nat) (x : ℚ) :
    (voiceSostenuto r v cc x).age = v.age ∧ (voiceSostenuto r v cc x).triggerDelay = v.triggerDelay ∧
    (voiceSostenuto r v cc x).offed = v.offed ∧ (voiceSostenuto r v cc x).state = v.state ∧
    (voiceSostenuto r v cc x).released = v.released ∧ (voiceSostenuto r v cc x).noteIsOff = v.noteIsOff ∧
    (voiceSostenuto r v cc x).trig = v.trig ∧ (voiceSostenuto r v cc x).layer = v.layer ∧
    (voiceSostenuto r v cc x).sustaining = v.sustaining := by
  unfold voiceSostenuto
  split
  · split
    · exact ⟨rfl, rfl, rfl, rfl, rfl, rfl, rfl, rfl, rfl⟩
    split <;> exact ⟨rfl, rfl, rfl, rfl, rfl, rfl, rfl, rfl, rfl⟩
  · exact ⟨rfl, rfl, rfl, rfl, rfl, rfl, rfl, rfl, rfl⟩

/-- The pedals told. -/
def told (r : Layer.Region) (cc : Nat) (x : ℚ) (v : Voice) : Voice := voiceSustain r (voiceSostenuto r v cc x) cc x

theorem told_keeps (r : Layer.Region) (cc : Nat) (x : ℚ) (v : Voice) :
    (told r cc x v).age = v.age ∧ (told r cc x v).triggerDelay = v.triggerDelay ∧
    (told r cc x v).offed = v.offed ∧ (told r cc x v).state = v.state ∧
    (told r cc x v).released = v.released ∧ (told r cc x v).noteIsOff = v.noteIsOff ∧
    (told r cc x v).trig = v.trig ∧ (told r cc x v).layer = v.layer := by
  unfold told
  have h1 := voiceSustain_keeps r (voiceSostenuto r v cc x) cc x
  have h2 := voiceSostenuto_keeps r v cc x
  exact ⟨h1.1.trans h2.1, h1.2.1.trans h2.2.1, h1.2.2.1.trans h2.2.2.1, h1.2.2.2.1.trans h2.2.2.2.1,
    h1.2.2.2.2.1.trans h2.2.2.2.2.1, h1.2.2.2.2.2.1.trans h2.2.2.2.2.2.1, h1.2.2.2.2.2.2.1.trans h2.2.2.2.2.2.2.1,
    h1.2.2.2.2.2.2.2.1.trans h2.2.2.2.2.2.2.2.1⟩

theorem pedalRec_eq (r : Layer.Region) (d : Int) (cc : Nat) (x : ℚ) (v : Voice) :
    pedalRec r d cc x v = if (told r cc x v).noteIsOff && !r.oneShot && pedalsUp r (told r cc x v) then releaseRec (told r cc x v) d
      else told r cc x v := rfl

theorem pedalRec_keeps (r : Layer.Region) (d : Int) (cc : Nat) (x : ℚ) (v : Voice) :
    (pedalRec r d cc x v).age = v.age ∧ (pedalRec r d cc x v).triggerDelay = v.triggerDelay ∧
    (pedalRec r d cc x v).offed = v.offed ∧ (pedalRec r d cc x v).noteIsOff = v.noteIsOff ∧
    (pedalRec r d cc x v).trig = v.trig ∧ (pedalRec r d cc x v).layer = v.layer ∧
    ((pedalRec r d cc x v).state = .playing → v.state = .playing ∧ (v.released = true → (pedalRec r d cc x v).released = true)) := by
  rw [pedalRec_eq]
  have h1 := told_keeps r cc x v
  have h2 := releaseRec_keeps (told r cc x v) d
  split
  · exact ⟨h2.1.trans h1.1, h2.2.1.trans h1.2.1, h2.2.2.1.trans h1.2.2.1, h2.2.2.2.1.trans h1.2.2.2.2.2.1,
      h2.2.2.2.2.1.trans h1.2.2.2.2.2.2.1, h2.2.2.2.2.2.1.trans h1.2.2.2.2.2.2.2,
      fun h => ⟨h1.2.2.2.1 ▸ (h2.2.2.2.2.2.2.2.2 h).1, fun _ => (h2.2.2.2.2.2.2.2.2 h).2⟩⟩
  · exact ⟨h1.1, h1.2.1, h1.2.2.1, h1.2.2.2.2.2.1, h1.2.2.2.2.2.2.1, h1.2.2.2.2.2.2.2,
      fun h => ⟨h1.2.2.2.1 ▸ h, fun hr => h1.2.2.2.2.1.trans hr⟩⟩

theorem ccRec_keeps (e : Env) (d : Int) (cc : Nat) (x : ℚ) (v : Voice) : (ccRec e d cc x v).age = v.age ∧
    (ccRec e d cc x v).triggerDelay = v.triggerDelay ∧ (ccRec e d cc x v).offed = v.offed ∧
    ((ccRec e d cc x v).state = .playing → v.state = .playing ∧
      (e.sustainCancelsRelease = false → v.released = true → (ccRec e d cc x v).released = true)) := by
  unfold ccRec
  cases v.layer with
  | none => exact ⟨rfl, rfl, rfl, fun h => ⟨h, fun _ => id⟩⟩
  | some l =>
    simp only
    have hk := pedalRec_keeps (e.regions l) d cc x v
    split
    · exact ⟨rfl, rfl, rfl, fun h => ⟨h, fun _ => id⟩⟩
    split
    · exact ⟨rfl, rfl, rfl, fun h => ⟨h, fun _ => id⟩⟩
    split
    · rename_i hc
      refine ⟨hk.1, hk.2.1, hk.2.2.1, fun h => ⟨(hk.2.2.2.2.2.2 h).1, fun he => ?_⟩⟩
      simp [cancels, he] at hc
    · exact ⟨hk.1, hk.2.1, hk.2.2.1, fun h => ⟨(hk.2.2.2.2.2.2 h).1, fun _ => (hk.2.2.2.2.2.2 h).2⟩⟩

theorem renderRec_keeps (f : Nat) (snd : Sound) (v : Voice) : (renderRec c f snd v).age = ageAfter f v ∧
    (renderRec c f snd v).triggerDelay = none ∧ (v.offed = true → (renderRec c f snd v).offed = true) ∧
    ((renderRec c f snd v).state = .playing → v.state = .playing ∧ (v.released = true → (renderRec c f snd v).released = true) ∧
      ((renderRec c f snd v).offed = true → v.offed = true ∨ (renderRec c f snd v).released = true)) := by
  unfold renderRec aged
  cases hs : snd.sampleEnded with
  | none =>
    simp only
    exact ⟨trivial, trivial, id, fun h => ⟨h, fun hr => by simp [hr], fun ho => Or.inl ho⟩⟩
  | some d =>
    simp only
    obtain ⟨h1, h2, h3, _, _, _, _, _, h9⟩ := offRec_keeps v d
    refine ⟨?_, trivial, fun _ => h3, fun h => ⟨offRec_playing h, fun _ => by simp [h9 h], fun _ => Or.inr (by simp [h9 h])⟩⟩
    unfold ageAfter; rw [h1, h2]

/-! ### C58 -/

/-- C58 (first part), when the sustain pedal does not cancel releases (the default; `choked_voice_revived_violated`
otherwise): after every history, every playing voice turned off by polyphony, by an off group or by the end of its sample
is in its release. -/
theorem choked_fades_partial (hc : c.sustainCancelsRelease = false) (m : Midi.State) (sw : Option Int) (n : Nat)
    (gl sl : Nat → Nat) (ops : List Op) (s : E) (hr : run c (load c m sw n gl sl) ops = some s) (i : Nat) (hp : Plays s i)
    (ho : (s.vm.voices i).offed = true) : (s.vm.voices i).released = true := by
  let Q : Nat → Voice → Prop := fun _ v => v.offed = true → v.released = true
  have hQ : Kept c Q := by
    refine ⟨?_, ?_, ?_, ?_⟩
    · intro i v d _ _ hp _; exact (offRec_keeps v d).2.2.2.2.2.2.2.2 hp
    · intro i m l d t v h
      rw [(startRec_keeps c.toEnv m l d t v).2.2.1] at h; cases h
    · intro d n i v hv hp h
      obtain ⟨_, _, k3, k4⟩ := noteOffRec_keeps c.toEnv d n v
      exact (k4 hp).2 (hv (k4 hp).1 (k3 ▸ h))
    · intro d k x i v hv hp h
      obtain ⟨_, _, k3, k4⟩ := ccRec_keeps c.toEnv d k x v
      exact (k4 hp).2 hc (hv (k4 hp).1 (k3 ▸ h))
  have hR : ∀ f sd, Closed Q (renderRec c f sd) := by
    intro f sd i v hv hp h
    obtain ⟨_, _, _, k4⟩ := renderRec_keeps (c := c) f sd v
    obtain ⟨p1, p2, p3⟩ := k4 hp
    rcases p3 h with h | h
    · exact p2 (hv p1 h)
    · exact h
  exact hQ.run hR ops (Hold.load m sw n gl sl) hr i hp.1 hp.2 ho

/-- C58 (second part): whatever call follows, a playing voice that was turned off and is in its release stays so until
it ends; the only other way for the slot to play is that the call started a new voice there. -/
theorem choked_stays_partial (hc : c.sustainCancelsRelease = false) (s s' : E) (op : Op) (hs : step c s op = some s') (i : Nat)
    (hp : Plays s i) (ho : (s.vm.voices i).offed = true) (hrel : (s.vm.voices i).released = true) (hp' : Plays s' i) :
    ((s'.vm.voices i).offed = true ∧ (s'.vm.voices i).released = true) ∨
      (Fresh (s'.vm.voices i) ∧ ∀ n, ¬ Renders n op) := by
  have hi : i < s.vm.size := hp.1
  by_cases hrd : ∃ n, Renders n op
  · obtain ⟨f, hf, snd, rfl⟩ := hrd
    obtain ⟨_, k2⟩ := render_voices hf hs
    obtain ⟨_, ⟨he, _⟩ | ⟨he, _⟩⟩ := k2 i hi hp'.2
    · rw [he]; exact Or.inl ⟨ho, hrel⟩
    · have hp2 := hp'.2
      rw [he] at hp2 ⊢
      obtain ⟨_, _, k3, k4⟩ := renderRec_keeps (c := c) f (snd i) (s.vm.voices i)
      exact Or.inl ⟨k3 ho, (k4 hp2).2.1 hrel⟩
  · have hnr : ∀ n, ¬ Renders n op := fun n h => hrd ⟨n, h⟩
    let Q : Nat → Voice → Prop := fun j v => j = i → (v.offed = true ∧ v.released = true) ∨ Fresh v
    have hQ : Kept c Q := by
      refine ⟨?_, ?_, ?_, ?_⟩
      · intro j v d _ h hp hj
        obtain ⟨_, _, h3, _, _, _, _, _, h9⟩ := offRec_keeps v d
        exact Or.inl ⟨h3, h9 hp⟩
      · intro j m l d t v _
        obtain ⟨k1, k2, _⟩ := startRec_keeps c.toEnv m l d t v
        exact Or.inr ⟨k1, by rw [k2]; simp⟩
      · intro d n j v hv hp hj
        obtain ⟨k1, k2, k3, k4⟩ := noteOffRec_keeps c.toEnv d n v
        rcases hv (k4 hp).1 hj with ⟨h1, h2⟩ | ⟨h1, h2⟩
        · exact Or.inl ⟨k3.trans h1, (k4 hp).2 h2⟩
        · exact Or.inr ⟨k1.trans h1, by rw [k2]; exact h2⟩
      · intro d k x j v hv hp hj
        obtain ⟨k1, k2, k3, k4⟩ := ccRec_keeps c.toEnv d k x v
        rcases hv (k4 hp).1 hj with ⟨h1, h2⟩ | ⟨h1, h2⟩
        · exact Or.inl ⟨k3.trans h1, (k4 hp).2 hc h2⟩
        · exact Or.inr ⟨k1.trans h1, by rw [k2]; exact h2⟩
    have h0 : Hold Q s.vm := by
      intro j _ _ hj; subst hj; exact Or.inl ⟨ho, hrel⟩
    have h1 : Hold Q s'.vm := by
      cases op with
      | render f snd =>
        have hf : ¬ 1 ≤ f := fun hf => hnr f ⟨hf, snd, rfl⟩
        have hs : render c s f snd = some s' := hs
        unfold render at hs
        rw [if_pos (by omega)] at hs
        cases hs; exact h0
      | _ => exact hQ.step (fun f snd sd h => by cases h) h0 hs
    rcases h1 i hp'.1 hp'.2 rfl with h | h
    · exact Or.inl h
    · exact Or.inr ⟨h, hnr⟩

/-- One region that chokes itself (`off_by` its own group). -/
def selfChoke (cancel : Bool) : Cfg := demo [{ offBy := some 0 }] .oldest cancel

/-- Both theorems on a concrete history: the second key chokes the first voice, which stays in its release through the
sustain pedal; one more key starts a new voice in a third slot. -/
example : ((run (selfChoke false) (demoLoad (selfChoke false) 4 8) [.noteOn 0 60 1, .noteOn 0 62 1, .cc 0 64 1]).map
    (fun s => [(s.vm.voices 0).offed, (s.vm.voices 0).released, (s.vm.voices 1).offed, (s.vm.voices 1).released,
      decide ((s.vm.voices 0).state = .playing)])) = some [true, true, false, false, true] := by decide +kernel

/-- C58 fails when the sustain pedal cancels releases: a voice choked by an off group goes back to full level when the
pedal is pressed, while the engine still counts it as turned off. -/
theorem choked_voice_revived_violated :
    ∃ s, run (selfChoke true) (demoLoad (selfChoke true) 4 8) [.noteOn 0 60 1, .noteOn 0 62 1, .cc 0 64 1] = some s ∧
      Plays s 0 ∧ (s.vm.voices 0).offed = true ∧ (s.vm.voices 0).released = false := by
  have h : ((run (selfChoke true) (demoLoad (selfChoke true) 4 8) [.noteOn 0 60 1, .noteOn 0 62 1, .cc 0 64 1]).map
    (fun s => [decide (0 < s.vm.size), decide ((s.vm.voices 0).state = .playing), (s.vm.voices 0).offed,
      (s.vm.voices 0).released])) = some [true, true, true, false] := by decide +kernel
  rw [Option.map_eq_some_iff] at h
  obtain ⟨s, h1, h2⟩ := h
  simp only [List.cons.injEq, decide_eq_true_eq, and_true] at h2
  exact ⟨s, h1, ⟨h2.1, h2.2.1⟩, h2.2.2.1, h2.2.2.2⟩

/-! ### C57 -/

/-- Whatever happens before the first block, a voice that has not been rendered yet has age zero. -/
theorem unrendered_age (m : Midi.State) (sw : Option Int) (n : Nat) (gl sl : Nat → Nat) (ops : List Op) (s : E)
    (hr : run c (load c m sw n gl sl) ops = some s) (i : Nat) (hp : Plays s i) (ht : (s.vm.voices i).triggerDelay ≠ none) :
    (s.vm.voices i).age = 0 := by
  let Q : Nat → Voice → Prop := fun _ v => v.triggerDelay ≠ none → v.age = 0
  have hQ : Kept c Q := by
    refine ⟨?_, ?_, ?_, ?_⟩
    · intro i v d _ h hp ht
      obtain ⟨k1, k2, _⟩ := offRec_keeps v d
      rw [k1]; rw [k2] at ht; exact h ht
    · intro i m l d t v _
      exact (startRec_keeps c.toEnv m l d t v).1
    · intro d n i v hv hp ht
      obtain ⟨k1, k2, _, k4⟩ := noteOffRec_keeps c.toEnv d n v
      rw [k1]; rw [k2] at ht; exact hv (k4 hp).1 ht
    · intro d k x i v hv hp ht
      obtain ⟨k1, k2, _, k4⟩ := ccRec_keeps c.toEnv d k x v
      rw [k1]; rw [k2] at ht; exact hv (k4 hp).1 ht
  have hR : ∀ f sd, Closed Q (renderRec c f sd) := by
    intro f sd i v hv hp h
    exact absurd (renderRec_keeps (c := c) f sd v).2.1 h
  exact hQ.run hR ops (Hold.load m sw n gl sl) hr i hp.1 hp.2 ht

/-- C57, as far as it holds. A block of `n` frames adds `n` to the age of a voice already rendered once; calls other
than blocks leave the age and the pending trigger delay of a playing voice alone, unless they start a new voice (of age
zero) in its place. In its first block the age of a voice becomes `min (n - delay) 0` (`voice_age_violated`), not
`n - delay`, so that the ages of all voices are short by the length of their first block after the trigger. -/
theorem voice_age_partial (m : Midi.State) (sw : Option Int) (k : Nat) (gl sl : Nat → Nat) (ops : List Op) (s s' : E)
    (hrun : run c (load c m sw k gl sl) ops = some s) (op : Op) (hs : step c s op = some s') (i : Nat)
    (hi : i < s.vm.size) (hen : ∀ l, (c.regions l).disabled = false) (hl : (s.vm.voices i).layer ≠ none) (hp' : Plays s' i) :
    (∀ n, Renders n op → (s.vm.voices i).state = .playing ∧ (s'.vm.voices i).triggerDelay = none ∧
      ((s.vm.voices i).triggerDelay = none → (s'.vm.voices i).age = (s.vm.voices i).age + n) ∧
      (∀ d, (s.vm.voices i).triggerDelay = some d → (s'.vm.voices i).age = min (n - d) 0)) ∧
    ((∀ n, ¬ Renders n op) → Fresh (s'.vm.voices i) ∨
      (s'.vm.voices i).age = (s.vm.voices i).age ∧ (s'.vm.voices i).triggerDelay = (s.vm.voices i).triggerDelay) := by
  refine ⟨?_, ?_⟩
  · rintro n ⟨hn, snd, rfl⟩
    obtain ⟨_, k2⟩ := render_voices hn hs
    obtain ⟨h1, ⟨_, h2 | ⟨l, _, h2⟩⟩ | ⟨he, _⟩⟩ := k2 i hi hp'.2
    · exact absurd h2 hl
    · rw [hen l] at h2; cases h2
    · obtain ⟨p1, p2, _⟩ := renderRec_keeps (c := c) n (snd i) (s.vm.voices i)
      rw [he, p1, p2]
      refine ⟨h1, rfl, fun h => by simp [ageAfter, h], fun d h => ?_⟩
      have h0 := unrendered_age m sw k gl sl ops s hrun i ⟨hi, h1⟩ (by rw [h]; simp)
      simp [ageAfter, h, h0]
  · intro hnr
    let Q : Nat → Voice → Prop := fun j v => j = i → Fresh v ∨ v.age = (s.vm.voices i).age ∧
      v.triggerDelay = (s.vm.voices i).triggerDelay
    have hQ : Kept c Q := by
      refine ⟨?_, ?_, ?_, ?_⟩
      · intro j v d _ h hp hj
        obtain ⟨k1, k2, _⟩ := offRec_keeps v d
        unfold Fresh; rw [k1, k2]; exact h hj
      · intro j m l d t v _
        obtain ⟨k1, k2, _⟩ := startRec_keeps c.toEnv m l d t v
        exact Or.inl ⟨k1, by rw [k2]; simp⟩
      · intro d n j v hv hp hj
        obtain ⟨k1, k2, k3, k4⟩ := noteOffRec_keeps c.toEnv d n v
        unfold Fresh; rw [k1, k2]; exact hv (k4 hp).1 hj
      · intro d k x j v hv hp hj
        obtain ⟨k1, k2, k3, k4⟩ := ccRec_keeps c.toEnv d k x v
        unfold Fresh; rw [k1, k2]; exact hv (k4 hp).1 hj
    have h0 : Hold Q s.vm := by
      intro j _ _ hj; subst hj; exact Or.inr ⟨rfl, rfl⟩
    have h1 : Hold Q s'.vm := by
      cases op with
      | render f snd =>
        have hf : ¬ 1 ≤ f := fun hf => hnr f ⟨hf, snd, rfl⟩
        have hs : render c s f snd = some s' := hs
        unfold render at hs
        rw [if_pos (by omega)] at hs
        cases hs; exact h0
      | _ => exact hQ.step (fun f snd sd h => by cases h) h0 hs
    exact h1 i hp'.1 hp'.2 rfl

/-- A sound that never ends by itself. -/
def lasting : Nat → Sound := fun _ => ⟨none, false, false, 0⟩

/-- The partial theorem on a concrete history: blocks after the first one count. -/
example : ((run (demo [{}]) (demoLoad (demo [{}]) 4 8) [.noteOn 10 60 1, .render 64 lasting, .render 32 lasting,
    .cc 0 64 1, .render 16 lasting]).map (fun s => [(s.vm.voices 0).age, if (s.vm.voices 0).state = .playing then 1 else 0])) =
    some [48, 1] := by decide +kernel

/-- C57 fails in the first block: a voice triggered at frame 0 of a block of 256 frames has age 0 afterwards, not 256. -/
theorem voice_age_violated :
    ∃ s, run (demo [{}]) (demoLoad (demo [{}]) 4 8) [.noteOn 0 60 1, .render 256 lasting] = some s ∧
      Plays s 0 ∧ (s.vm.voices 0).age = 0 := by
  have h : ((run (demo [{}]) (demoLoad (demo [{}]) 4 8) [.noteOn 0 60 1, .render 256 lasting]).map
    (fun s => [decide (0 < s.vm.size), decide ((s.vm.voices 0).state = .playing), decide ((s.vm.voices 0).age = 0)])) =
      some [true, true, true] := by decide +kernel
  rw [Option.map_eq_some_iff] at h
  obtain ⟨s, h1, h2⟩ := h
  simp only [List.cons.injEq, decide_eq_true_eq, and_true] at h2
  exact ⟨s, h1, ⟨h2.1, h2.2.1⟩, h2.2.2⟩

end Verif.Engine
