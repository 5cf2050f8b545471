import Verif.Engine.ReleasesPlay

/-! C16: releases with the pedal up, and what goes wrong. -/
namespace Verif.Engine

open Verif.Layer (Region)
open Verif.Range (containsWithEnd)

variable {c : Cfg}

open Classical in
/-- The release a note-off of key `n` must play at once for layer `l`, for a listener with the notes `p` (pedals, waiting, caught): the
region hears it, the sustain pedal is up and the sostenuto pedal has not caught the key. -/
noncomputable def dueNow (c : Cfg) (s : E) (n : Int) (l : Nat) (p : Bool × Bool × List (Int × ℚ) × List (Int × ℚ)) : List (Nat × Int × ℚ) :=
  if (c.regions l).trigger = .release ∧ hears c s l n = true ∧ (p.1 = false ∧ n ∉ p.2.2.2.map Prod.fst) ∧
      ((c.regions l).rtDead = true ∨ attackAlive s.vm (c.regions l))
  then [(l, n, Layer.noteVelocity s.midi n)] else []

theorem noteOffRec_use (e : Env) (d n : Int) (v : Voice) :
    ((noteOffRec e d n v).state = .idle ↔ v.state = .idle) ∧ (noteOffRec e d n v).trig = v.trig := by
  have hrel : ∀ w : Voice, ((releaseRec w d).state = .idle ↔ w.state = .idle) ∧ (releaseRec w d).trig = w.trig := by
    intro w
    unfold releaseRec
    split
    · exact ⟨Iff.rfl, rfl⟩
    · rename_i h
      push Not at h
      refine ⟨?_, rfl⟩
      simp only [h]
      split <;> simp
  unfold noteOffRec
  split
  · exact ⟨Iff.rfl, rfl⟩
  · split
    · exact ⟨Iff.rfl, rfl⟩
    · split
      · split
        · exact ⟨Iff.rfl, rfl⟩
        · split
          · exact hrel (keyUp v)
          · exact ⟨Iff.rfl, rfl⟩
      · exact ⟨Iff.rfl, rfl⟩

/-- The voices after the note-off has been told to them, before the releases start. -/
def toldOff (c : Cfg) (d n : Int) (s : E) : E := eachVoice (fun vm i => voiceNoteOff c.toEnv vm i d n) s

theorem toldOff_use (d n : Int) (s : E) : SoftVM s.vm (toldOff c d n s).vm ∧
    (∀ i, ((toldOff c d n s).vm.voices i).state = .idle ↔ (s.vm.voices i).state = .idle) ∧
    (∀ i, ((toldOff c d n s).vm.voices i).trig = (s.vm.voices i).trig) := by
  obtain ⟨_, h2⟩ := eachVoice_voices (voiceNoteOff_own c.toEnv d n) s
  refine ⟨eachVoice_soft _ (fun s i => voiceNoteOff_soft s i d n) s, fun i => ?_, fun i => ?_⟩
  · unfold toldOff
    rw [h2 i]
    split
    · exact (noteOffRec_use _ _ _ _).1
    · exact Iff.rfl
  · unfold toldOff
    rw [h2 i]
    split
    · exact (noteOffRec_use _ _ _ _).2
    · rfl

/-- One layer of the dispatch of a note-off. -/
theorem noteOffLayer_room (hn : NoOffBy c) (disp : E → Int → Int → ℚ → Option E) {L : List Nat} {l : Nat} (hl : l ∈ L) (d n : Int) (v u : ℚ)
    (s : E) (head : Option Nat) (N : Nat) (hg : Good c.toEnv s.vm head) (X : List (Nat × Int × ℚ))
    (hfit : Fits c.toEnv s.vm L (X.length + N))
    (hX : X = [] ∧ ((Layer.registerNoteOff (c.regions l) s.midi (s.layers l) n v u).2 = false ∨
        (c.regions l).trigger = .release ∧ (c.regions l).rtDead = false ∧ ¬ attackAlive s.vm (c.regions l)) ∨
      X = [(l, n, v)] ∧ CanPlay c.toEnv l ∧ (Layer.registerNoteOff (c.regions l) s.midi (s.layers l) n v u).2 = true ∧
        ((c.regions l).rtDead = true ∨ attackAlive s.vm (c.regions l))) :
    ∃ s' head', noteOffLayer c disp d n v u (s, head) l = some (s', head') ∧ Good c.toEnv s'.vm head' ∧ Fits c.toEnv s'.vm L N ∧
      s'.vm.size = s.vm.size ∧ s'.midi = s.midi ∧ OneEach c.toEnv s.midi d s.vm s'.vm X := by
  rcases hX with ⟨rfl, h⟩ | ⟨rfl, hc, hfire, hal⟩
  · have hN : Fits c.toEnv s.vm L N := by simpa using hfit
    have : noteOffLayer c disp d n v u (s, head) l =
        some (setLayer s l (Layer.registerNoteOff (c.regions l) s.midi (s.layers l) n v u).1, head) := by
      unfold noteOffLayer
      dsimp only
      rcases h with h | ⟨h1, h2, h3⟩
      · rw [h]; rfl
      · have hp : playingAttackVoice s.vm (c.regions l) = false := by
          rw [← Bool.not_eq_true, playingAttack_iff hg.1]; exact h3
        split
        · rw [if_pos ⟨h1, h2, hp⟩]; rfl
        · rfl
    exact ⟨_, _, this, hg, hN, rfl, rfl, OneEach.nil _ _ _ _⟩
  · have hfit' : Fits c.toEnv s.vm L (N + 1) := by simpa [Nat.add_comm] using hfit
    obtain ⟨vm, head1, a1, a2, a3, a4, a5⟩ := start_room hg hl hfit' hc s.midi d n v
    have : noteOffLayer c disp d n v u (s, head) l =
        some ({ setLayer s l (Layer.registerNoteOff (c.regions l) s.midi (s.layers l) n v u).1 with vm := vm }, head1) := by
      unfold noteOffLayer
      dsimp only
      rw [if_pos hfire, if_neg]
      · rw [checkOffGroups_id hn]
        show start c _ l d _ head = _
        unfold start
        show (startVoice c.toEnv s.vm s.midi l d _ head).bind _ = _
        rw [a1]; rfl
      · rintro ⟨_, h2, h3⟩
        rcases hal with h | h
        · rw [h2] at h; cases h
        · have h3' : playingAttackVoice s.vm (c.regions l) = false := h3
          rw [(playingAttack_iff hg.1 _).mpr h] at h3'; cases h3'
    exact ⟨_, _, this, a2, a3, a4, rfl, a5⟩

theorem noteOffLayers_room (hn : NoOffBy c) (disp : E → Int → Int → ℚ → Option E) {L0 : List Nat} (d n : Int) (v u : ℚ) (m : Midi.State)
    (S : Nat → Layer.State) (alive : Region → Prop) (X : Nat → List (Nat × Int × ℚ)) :
    ∀ (L : List Nat), L.Nodup → (∀ l ∈ L, l ∈ L0 ∧
      (X l = [] ∧ ((Layer.registerNoteOff (c.regions l) m (S l) n v u).2 = false ∨
          (c.regions l).trigger = .release ∧ (c.regions l).rtDead = false ∧ ¬ alive (c.regions l)) ∨
        X l = [(l, n, v)] ∧ CanPlay c.toEnv l ∧ (Layer.registerNoteOff (c.regions l) m (S l) n v u).2 = true ∧
          ((c.regions l).rtDead = true ∨ alive (c.regions l)))) →
    ∀ (s : E) (head : Option Nat), s.midi = m → (∀ l ∈ L, s.layers l = S l) → (∀ r, attackAlive s.vm r ↔ alive r) → Good c.toEnv s.vm head →
      Fits c.toEnv s.vm L0 (L.flatMap X).length →
    ∃ s' head', L.foldlM (noteOffLayer c disp d n v u) (s, head) = some (s', head') ∧ s'.midi = m ∧ s'.vm.size = s.vm.size ∧
      OneEach c.toEnv m d s.vm s'.vm (L.flatMap X) := by
  intro L
  induction L with
  | nil => intro _ _ s head hm _ _ _ _; exact ⟨s, head, rfl, hm, rfl, OneEach.nil _ _ _ _⟩
  | cons l L ih =>
    intro hnd hL s head hm hS hal hg hf
    obtain ⟨hnl, hnd'⟩ := List.nodup_cons.mp hnd
    obtain ⟨q1, q2⟩ := hL l (by simp)
    rw [List.flatMap_cons, List.length_append] at hf
    rw [← hm, ← hS l (by simp), ← hal] at q2
    obtain ⟨s1, head1, a1, a2, a3, a4, a5, a6⟩ := noteOffLayer_room hn disp q1 d n v u s head _ hg (X l) hf q2
    have hlay : ∀ l' ∈ L, s1.layers l' = S l' := by
      intro l' hl'
      have hne : l ≠ l' := fun e => hnl (e ▸ hl')
      rw [show s1.layers = _ from (noteOffLayer_layers hn a1).2, setLayer_view _ _ _ _ hne]
      exact hS l' (by simp [hl'])
    obtain ⟨s2, head2, b1, b2, b3, b4⟩ := ih hnd' (fun l' hl' => hL l' (by simp [hl'])) s1 head1 (a5.trans hm) hlay
      (fun r => (a6.attack r).trans (hal r)) a2 a3
    refine ⟨s2, head2, ?_, b2, b3.trans a4, ?_⟩
    · rw [List.foldlM_cons, a1]; exact b1
    · rw [List.flatMap_cons]
      rw [hm] at a6
      exact OneEach.trans a4 a6 b4

theorem registerNoteOff_quiet {r : Region} (h : r.trigger ≠ .release ∧ r.trigger ≠ .releaseKey) (m : Midi.State) (s : Layer.State) (n : Int)
    (v u : ℚ) : (Layer.registerNoteOff r m s n v u).2 = false := by
  unfold Layer.registerNoteOff
  simp [h.1, h.2]

/-- C16: a note-off heard with the sustain pedal up, of a key the sostenuto pedal has not caught, plays its release at once, exactly one
voice per region; any other note-off plays nothing. -/
theorem releases_now_partial (hn : NoOffBy c) (m : Midi.State) (sw : Option Int) (N : Nat) (gl sl : Nat → Nat) (ops : List Op) (s : E)
    (hsane : Sane c N gl sl ops) (h : run c (load c m sw N gl sl) ops = some s) (d n : Int) (v : ℚ)
    (hL : ∀ l ∈ noteLayers c n, (c.regions l).trigger ≠ .release ∧ (c.regions l).trigger ≠ .releaseKey ∨
      IsRelease (c.regions l) ∧ CanPlay c.toEnv l) (X : List (Nat × Int × ℚ))
    (hX : X = (noteLayers c n).flatMap (fun l => dueNow c s n l (ops.foldl (listen c l) (listenInit c m sw N gl sl l)).notes))
    (hfit : Fits c.toEnv s.vm (noteLayers c n) X.length) :
    ∃ s', run c (load c m sw N gl sl) (ops ++ [.noteOff d n v]) = some s' ∧ OneEach c.toEnv s'.midi d (toldOff c d n s).vm s'.vm X := by
  subst hX
  obtain ⟨s0, h1, h2, h3, _⟩ := reachable_ok m sw N gl sl ops hsane
  rw [h] at h1; cases h1
  have hmem : ∀ l ∈ noteLayers c n, l < c.numLayers ∧ containsWithEnd (c.regions l).keyRange n = true := fun l hl => by
    unfold noteLayers at hl
    simpa using hl
  -- the state after the MIDI state has been told
  have key : ∀ s1 : E, s1.vm = s.vm → s1.layers = s.layers → s1.draws = s.draws → s1.midi.polyAftertouch = s.midi.polyAftertouch →
      s1.midi.lastNoteVelocities = s.midi.lastNoteVelocities →
      ∃ s', noteOffDispatch c (fuel (toldOff c d n s1)) (toldOff c d n s1) d n (Layer.noteVelocity s1.midi n) = some s' ∧
        OneEach c.toEnv s'.midi d (toldOff c d n s).vm s'.vm ((noteLayers c n).flatMap
          (fun l => dueNow c s n l (ops.foldl (listen c l) (listenInit c m sw N gl sl l)).notes)) := by
    intro s1 e1 e2 e3 e4 e5
    have hvel : Layer.noteVelocity s1.midi n = Layer.noteVelocity s.midi n := by unfold Layer.noteVelocity; rw [e5]
    have hpa : Layer.polyAftertouch s1.midi n = Layer.polyAftertouch s.midi n := by unfold Layer.polyAftertouch; rw [e4]
    have hvm : (toldOff c d n s1).vm = (toldOff c d n s).vm := by simp only [toldOff, eachVoice, e1]
    obtain ⟨t1, t2, t3⟩ := toldOff_use (c := c) d n s
    have hsw : (noteOffSwitches c (draw (toldOff c d n s1)) n).vm = (toldOff c d n s).vm := by
      rw [← hvm]; simp only [noteOffSwitches, setKeySwitched_vm]; rfl
    have hswm : (noteOffSwitches c (draw (toldOff c d n s1)) n).midi = s1.midi := by
      simp only [noteOffSwitches, setKeySwitched_frame]; rfl
    have hbusy : busy (toldOff c d n s).vm = busy s.vm := by
      unfold busy; rw [t1.links.size]; simp only [ne_eq, t2]
    obtain ⟨s2, head2, a1, a2, a3, a4⟩ := noteOffLayers_room hn (noteOffDispatch c (toldOff c d n s1).vm.size) (L0 := noteLayers c n) d n
      (Layer.noteVelocity s.midi n) (c.rand s.draws) s1.midi (noteOffSwitches c (draw (toldOff c d n s1)) n).layers
      (attackAlive s.vm) (fun l => dueNow c s n l (ops.foldl (listen c l) (listenInit c m sw N gl sl l)).notes) (noteLayers c n) (noteLayers_nodup n)
      (by
        intro l hl
        refine ⟨hl, ?_⟩
        rcases hL l hl with hq | ⟨hr, hcp⟩
        · refine Or.inl ⟨?_, Or.inl (registerNoteOff_quiet hq _ _ _ _ _)⟩
          unfold dueNow; rw [if_neg (fun hc => hq.1 hc.1)]
        · have hag := agree_after hn m sw N gl sl (hmem l hl).1 hr ops s h
          have hpe := hag.ped_eq
          simp only [ped, Prod.mk.injEq] at hpe
          have hlay : (noteOffSwitches c (draw (toldOff c d n s1)) n).layers l = s.layers l := by
            rw [(noteOffSwitches_away _ n l hr.noHold).1]
            show s1.layers l = _
            rw [e2]
          rw [hlay, registerNoteOff_release hr _ _ _ _ _ (hag.tidy rfl).calm, hpa, hpe.1, hpe.2.2.2]
          have hh : (Layer.isSwitchedOn (s.layers l) && containsWithEnd (c.regions l).polyAftertouchRange (Layer.polyAftertouch s.midi n)
            && (c.regions l).triggerOnNote && containsWithEnd (c.regions l).velocityRange (Layer.noteVelocity s.midi n)
            && containsWithEnd (c.regions l).keyRange n && Layer.randOk (c.regions l) (c.rand s.draws)) = hears c s l n := rfl
          rw [hh]
          generalize ops.foldl (listen c l) (listenInit c m sw N gl sl l) = x
          by_cases hx : hears c s l n = true ∧ x.down = false ∧ n ∉ x.caught.map Prod.fst
          · by_cases ha : (c.regions l).rtDead = true ∨ attackAlive s.vm (c.regions l)
            · refine Or.inr ⟨?_, hcp, by rw [if_pos hx.1, if_neg hx.2.2, hx.2.1]; rfl, ha⟩
              unfold dueNow; rw [if_pos ⟨hr.trigger, hx.1, hx.2, ha⟩]
            · refine Or.inl ⟨?_, Or.inr ⟨hr.trigger, by simpa using fun h => ha (Or.inl h), fun h => ha (Or.inr h)⟩⟩
              unfold dueNow; rw [if_neg (fun hc => ha hc.2.2.2)]
          · refine Or.inl ⟨?_, Or.inl ?_⟩
            · unfold dueNow; rw [if_neg (fun hc => hx ⟨hc.2.1, hc.2.2.1⟩)]
            · split
              · split
                · rfl
                · split
                  · rfl
                  · rename_i g1 g2 g3
                    exact absurd ⟨g1, by simpa using g3, g2⟩ hx
              · rfl)
      (noteOffSwitches c (draw (toldOff c d n s1)) n) none hswm (fun _ _ => rfl)
      (by
        intro r
        rw [hsw]
        unfold attackAlive
        simp only [ne_eq, t2, t3])
      (by rw [hsw]; exact ⟨h2.soft t1, h3.soft t1, fun a ha => by cases ha⟩)
      (by
        rw [hsw]
        refine ⟨?_, ?_, ?_, ?_, ?_⟩
        · rw [hbusy, t1.links.size]; exact hfit.size
        · rw [hbusy, t1.links.required]; exact hfit.engine
        · intro l hl; rw [hbusy]; exact hfit.region l hl
        · intro l hl; rw [hbusy, t1.links.groups]; exact hfit.group l hl
        · intro l hl a ha; rw [hbusy, t1.links.setLimits]; exact hfit.sets l hl a ha)
    refine ⟨s2, ?_, ?_⟩
    · unfold fuel noteOffDispatch
      simp only [Option.bind_eq_bind]
      have hdr : (toldOff c d n s1).draws = s.draws := e3
      rw [hdr, hvel, a1]; rfl
    · rw [hsw] at a4; rw [a2]; exact a4
  rw [run_snoc, h, Option.bind_some]
  show ∃ s', hdNoteOff c s d n v = some s' ∧ _
  unfold hdNoteOff
  by_cases he : (lastLayers c n).isEmpty = true
  · simp only [he, if_true]
    obtain ⟨m1, m2⟩ := midiNoteOff_view s.midi d n v (c.midiRand s.draws).1 (c.midiRand s.draws).2
    exact key { s with midi := Midi.noteOff s.midi d n v (c.midiRand s.draws).1 (c.midiRand s.draws).2 } rfl rfl rfl m1 m2
  · simp only [he]
    exact key s rfl rfl rfl rfl rfl

/-! ### Concrete cases -/

/-- A region on every key, and one that plays on release whatever else plays. -/
def bells : Cfg := demo [{}, { trigger := .release, rtDead := true }]

/-- The voices that play a release: layer, key and velocity. -/
def heardReleases (s : E) : List (Option Nat × Int × ℚ) :=
  ((soundingVoices s).filter (fun i => decide ((s.vm.voices i).trig.type = .noteOff))).map
    (fun i => ((s.vm.voices i).layer, (s.vm.voices i).trig.number, (s.vm.voices i).trig.value))

theorem bells_release : IsRelease (bells.regions 1) := ⟨rfl, rfl, ⟨rfl, rfl⟩, by decide +kernel, by decide +kernel, by decide +kernel⟩

theorem bells_noOff : NoOffBy bells := by
  intro l
  match l with
  | 0 => rfl
  | 1 => rfl
  | _ + 2 => rfl

/-- The history of the examples: pedal down, two notes played and released, a third one still held. -/
def ringing : List Op := [.cc 0 64 1, .noteOn 0 60 1, .noteOn 0 62 (1/2), .noteOff 3 60 0, .noteOff 4 62 0, .noteOn 5 64 1]

/-- Both notes wait. -/
example : (run bells (demoLoad bells 8 20) ringing).map (fun s => (s.layers 1).delayedSustain) = some [(60, 1), (62, 1/2)] := by decide +kernel

/-- The sostenuto pedal goes down after the first note: its key is caught and makes no sound when it comes up, the key of the second one
sounds at once; when the pedal comes up, the first one sounds. -/
example : (run bells (demoLoad bells 8 20) [.noteOn 0 60 1, .cc 0 66 1, .noteOn 0 62 (1/2), .noteOff 3 60 0, .noteOff 4 62 0]).map
      (fun s => ((s.layers 1).delayedSostenuto, heardReleases s)) = some ([(60, 1)], [(some 1, 62, 1/2)]) ∧
    (run bells (demoLoad bells 8 20) [.noteOn 0 60 1, .cc 0 66 1, .noteOn 0 62 (1/2), .noteOff 3 60 0, .noteOff 4 62 0, .cc 5 66 0]).map
      heardReleases = some [(some 1, 62, 1/2), (some 1, 60, 1)] := by
  constructor <;> decide +kernel

/-- With the sustain pedal down, the sostenuto pedal hands over what it has caught. -/
example : (run bells (demoLoad bells 8 20) [.noteOn 0 60 1, .cc 0 66 1, .cc 1 64 1, .noteOff 3 60 0, .cc 5 66 0]).map
      (fun s => ((s.layers 1).delayedSustain, heardReleases s)) = some ([(60, 1)], []) := by decide +kernel

/-- The hypotheses of `releases_played_partial` on layers, room and sanity hold for it with the pedal up at frame 7; then both are played. -/
example : (ccLayers bells 64 = [1]) ∧ CanPlay bells.toEnv 1 ∧
    (∀ s, run bells (demoLoad bells 8 20) ringing = some s → Fits bells.toEnv s.vm [1] 2) ∧
    (run bells (demoLoad bells 8 20) (ringing ++ [.cc 7 64 0])).map (fun s => heardReleases s) =
      some [(some 1, 60, 1), (some 1, 62, 1/2)] := by
  refine ⟨by decide +kernel, ⟨rfl, Or.inr rfl, rfl⟩, ?_, by decide +kernel⟩
  intro s hs
  have h : ((run bells (demoLoad bells 8 20) ringing).map (fun s => decide (busy s.vm + 2 ≤ s.vm.size ∧ busy s.vm + 2 ≤ s.vm.required ∧
      busy s.vm + 2 ≤ (bells.regions 1).polyphony ∧ busy s.vm + 2 ≤ (s.vm.groups (bells.regions 1).group).limit ∧
      ∀ a ∈ (bells.regions 1).ancestors, busy s.vm + 2 ≤ s.vm.setLimits a))) = some true := by decide +kernel
  rw [hs] at h
  simp only [Option.map_some, Option.some.injEq, decide_eq_true_eq] at h
  exact ⟨h.1, h.2.1, by simpa using h.2.2.1, by simpa using h.2.2.2.1, by simpa using h.2.2.2.2⟩

/-- With the pedal up the release is played with the note-off. -/
example : (run bells (demoLoad bells 8 20) [.noteOn 0 60 1, .noteOff 3 60 0]).map (fun s => heardReleases s) =
    some [(some 1, 60, 1)] := by decide +kernel

/-! ### Where it fails -/

/-- CC 121 starts no voice, and leaves what waits as it is. -/
theorem reset_keeps_releases (s : E) (d : Int) {l : Nat} (hl : l < c.numLayers) (hr : IsRelease (c.regions l)) (hc : Calm (s.layers l)) :
    ((resetAllControllers c s d).layers l).delayedSustain = (s.layers l).delayedSustain ∧
    ((resetAllControllers c s d).layers l).sustainPressed =
      ((c.regions l).checkSustain && decide ((c.regions l).sustainThreshold ≤ c.defaultCC (c.regions l).sustainCC)) ∧
    ∀ i, ((resetAllControllers c s d).vm.voices i).trig = (s.vm.voices i).trig := by
  have key := reset_ped s d hl hr hc
  simp only [ped, Prod.mk.injEq] at key
  refine ⟨key.2.2.1, key.1, ?_⟩
  · intro i
    obtain ⟨_, hv⟩ := eachVoice_voices (resetVoiceCCs_own c d)
      { s with midi := (List.range Layer.numCCs).foldl (fun m cc => Midi.ccEvent m d cc (c.defaultCC cc)) (Midi.pitchBend s.midi d 0) }
    refine (congrArg Voice.trig (hv i)).trans ?_
    split
    · generalize List.range Layer.numCCs = L
      show (L.foldl _ (s.vm.voices i)).trig = _
      generalize s.vm.voices i = v
      induction L generalizing v with
      | nil => rfl
      | cons k L ih => rw [List.foldl_cons, ih, (ccRec_use _ _ _ _ _).2]
    · rfl

/-- C16 fails when CC 121 lifts the pedal: the pedal of the region is up, but the release is neither played nor forgotten. -/
theorem reset_lift_violated : ∃ s s', run bells (demoLoad bells 8 20) [.cc 0 64 1, .noteOn 0 60 1, .noteOff 0 60 0] = some s ∧
    step bells s (.cc 0 121 0) = some s' ∧ (s.layers 1).sustainPressed = true ∧ (s'.layers 1).sustainPressed = false ∧
    (s'.layers 1).delayedSustain = [(60, 1)] ∧ ∀ i, i < s.vm.size → (s'.vm.voices i).trig.type ≠ .noteOff := by
  have h : (run bells (demoLoad bells 8 20) [.cc 0 64 1, .noteOn 0 60 1, .noteOff 0 60 0]).map
      (fun s => decide ((s.layers 1).sustainPressed = true ∧ (s.layers 1).sostenutoPressed = false ∧ (s.layers 1).delayedSostenuto = [] ∧
        (s.layers 1).delayedSustain = [(60, 1)] ∧ ∀ i, i < s.vm.size → (s.vm.voices i).trig.type ≠ .noteOff)) = some true := by decide +kernel
  cases hs : run bells (demoLoad bells 8 20) [.cc 0 64 1, .noteOn 0 60 1, .noteOff 0 60 0] with
  | none => rw [hs] at h; cases h
  | some s =>
    rw [hs] at h
    simp only [Option.map_some, Option.some.injEq, decide_eq_true_eq] at h
    obtain ⟨k1, k2, k3⟩ := reset_keeps_releases (c := bells) s 0 (l := 1) (by decide) bells_release (fun _ => h.2.2.1)
    refine ⟨s, resetAllControllers bells s 0, rfl, rfl, h.1, ?_, k1.trans h.2.2.2.1, ?_⟩
    · rw [k2]; decide +kernel
    · intro i hi; rw [k3]; exact h.2.2.2.2 i hi

/-- C16 fails with the sostenuto pedal: lifting it plays the release of a key that is still held, which is played again when the key
comes up. -/
theorem sostenuto_release_violated :
    (run bells (demoLoad bells 8 20) [.noteOn 0 60 1, .cc 0 66 1, .cc 0 66 0]).map
      (fun s => (s.midi.noteStates 60, heardReleases s)) = some (true, [(some 1, 60, 1)]) ∧
    (run bells (demoLoad bells 8 20) [.noteOn 0 60 1, .cc 0 66 1, .cc 0 66 0, .noteOff 0 60 0]).map
      (fun s => heardReleases s) = some [(some 1, 60, 1), (some 1, 60, 1)] := by
  constructor <;> decide +kernel

/-- C16 fails after all sound off: the waiting releases survive it and are played at the next lift of the pedal. -/
theorem sound_off_release_violated :
    (run bells (demoLoad bells 8 20) [.cc 0 64 1, .noteOn 0 60 1, .noteOff 0 60 0, .cc 0 120 0, .cc 0 64 0]).map heardReleases =
      some [(some 1, 60, 1)] := by decide +kernel

end Verif.Engine
