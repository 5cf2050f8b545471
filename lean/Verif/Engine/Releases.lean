import Verif.Engine.Triggering
import Verif.Engine.Hold

/-! C16: the releases that wait for the sustain pedal. -/
namespace Verif.Engine

open Verif.Layer (Region)
open Verif.Range (containsWithEnd)

/-! ### Specification -/

variable (c : Cfg)

/-- Region `l` would be triggered by a note-off of key `n` received now: its conditions hold, and the velocity with which the
key was pressed is in its range. -/
def hears (s : E) (l : Nat) (n : Int) : Bool :=
  Layer.isSwitchedOn (s.layers l) && containsWithEnd (c.regions l).polyAftertouchRange (Layer.polyAftertouch s.midi n)
    && (c.regions l).triggerOnNote && containsWithEnd (c.regions l).velocityRange (Layer.noteVelocity s.midi n)
    && containsWithEnd (c.regions l).keyRange n && Layer.randOk (c.regions l) (c.rand s.draws)

/-- The keys of region `r` that are held, with the velocity they were pressed with: those the sostenuto pedal catches when it goes
down, as many as there is room for. -/
def heldKeys (r : Region) (m : Midi.State) : List (Int × ℚ) :=
  (((List.range 128).filter (fun k : Nat => containsWithEnd r.keyRange (k : Int) && m.noteStates k)).map
    (fun k : Nat => ((k : Int), Layer.noteVelocity m k))).take r.releaseCapacity

/-- What a listener notes down for region `l`: the engine, whether the sustain pedal and the sostenuto pedal are down, the note-offs
that wait for the sustain pedal, and the keys that the sostenuto pedal has caught. -/
structure Memory where
  state : E
  down : Bool
  sostenuto : Bool
  waiting : List (Int × ℚ) := []
  caught : List (Int × ℚ) := []

/-- A value for the sustain pedal: when it comes up, nothing waits any more. -/
def Memory.sustainTo (r : Region) (v : ℚ) (x : Memory) : Memory :=
  { x with down := r.checkSustain && decide (r.sustainThreshold ≤ v), waiting := if r.checkSustain && decide (v < r.sustainThreshold) then [] else x.waiting }

/-- A value for the sostenuto pedal: when it goes down it catches the keys that are held; when it comes up, what it has caught waits for
the sustain pedal, if that one is down. -/
def Memory.sostenutoTo (r : Region) (v : ℚ) (x : Memory) : Memory :=
  if r.checkSostenuto && decide (r.sostenutoThreshold ≤ v) then
    (if x.sostenuto then x else { x with sostenuto := true, caught := heldKeys r x.state.midi })
  else { x with sostenuto := false, caught := [], waiting := if x.down then (x.waiting ++ x.caught).take r.releaseCapacity else x.waiting }

/-- The reset of all controllers moves the pedals to their defaults, but what waits stays (see `reset_lift_violated`), and what the
sostenuto pedal has caught is forgotten. -/
def Memory.reset (r : Region) (sustain sostenuto : ℚ) (x : Memory) : Memory where
  state := x.state
  down := r.checkSustain && decide (r.sustainThreshold ≤ sustain)
  sostenuto := r.checkSostenuto && decide (r.sostenutoThreshold ≤ sostenuto)
  waiting := x.waiting
  caught := if r.checkSostenuto && decide (r.sostenutoThreshold ≤ sostenuto) then (if x.sostenuto then x.caught else heldKeys r x.state.midi) else []

/-- A note-off of key `n`: the region hears it, unless the sostenuto pedal has caught the key; with the sustain pedal down it waits, if there
is room. -/
def Memory.release (l : Nat) (n : Int) (x : Memory) : Memory :=
  if hears c x.state l n = true ∧ n ∉ x.caught.map Prod.fst ∧ x.down = true ∧ x.waiting.length < (c.regions l).releaseCapacity
  then { x with waiting := x.waiting ++ [(n, Layer.noteVelocity x.state.midi n)] } else x

/-- The call resets all controllers. -/
def isReset : Op → Bool
  | .cc _ k _ => decide (k = 121)
  | _ => false

/-- The listener hears a call. -/
def listen (l : Nat) (x : Memory) (op : Op) : Memory :=
  { (match op with
     | .noteOff _ n _ => x.release c l n
     | op =>
       if isReset op then x.reset (c.regions l) (c.defaultCC (c.regions l).sustainCC) (c.defaultCC (c.regions l).sostenutoCC)
       else match sentCC c (c.regions l).sustainCC op, sentCC c (c.regions l).sostenutoCC op with
         | some v, _ => x.sustainTo (c.regions l) v
         | none, some v => x.sostenutoTo (c.regions l) v
         | none, none => x) with
    state := (step c x.state op).getD x.state }

/-- No region is turned off by another one. -/
def NoOffBy : Prop := ∀ l, (c.regions l).offBy = none

/-- A region that plays when keys are released; its pedals are different controllers. -/
structure IsRelease (r : Region) : Prop where
  trigger : r.trigger = .release
  notCC : r.triggerOnCC = false
  noHold : NoHold r
  pedals : r.sustainCC ≠ r.sostenutoCC
  sustain : r.sustainCC < 512
  sostenuto : r.sostenutoCC < 512

/-! ### Lemmas -/

variable {c}

theorem chokeOne_id (hn : NoOffBy c) (disp : E → Int → Int → ℚ → Option E) (r : Region) (d n : Int) (b : Bool) (s : E) (i : Nat) :
    chokeOne c disp r d n b s i = some s := by
  have : checkOffGroup c.toEnv s.vm (fun l => Layer.ccAll (s.layers l)) i r d n = some (s.vm, false) := by
    unfold checkOffGroup
    split
    · rfl
    · simp only
      split
      · rfl
      · rw [if_neg]
        rintro ⟨_, h, _⟩
        rw [hn] at h; cases h
  unfold chokeOne
  rw [this]
  rfl

theorem checkOffGroups_id (hn : NoOffBy c) (disp : E → Int → Int → ℚ → Option E) (r : Region) (d n : Int) (b : Bool) (s : E) :
    checkOffGroups c disp r d n b s = some s := by
  unfold checkOffGroups
  generalize List.range s.vm.size = L
  induction L with
  | nil => rfl
  | cons a L ih => rw [List.foldlM_cons, chokeOne_id hn]; exact ih

/-- A loop over distinct layers, seen from layer `l`. -/
theorem fold_at {σ φ : Type} (f : σ → Nat → Option σ) (view : σ → φ) (l : Nat)
    (hf : ∀ a x x', a ≠ l → f x a = some x' → view x' = view x) : ∀ (L : List Nat) (x x' : σ), L.Nodup → L.foldlM f x = some x' →
      (l ∉ L → view x' = view x) ∧ (l ∈ L → ∃ y y', view y = view x ∧ f y l = some y' ∧ view x' = view y') := by
  intro L
  induction L with
  | nil => intro x x' _ h; cases h; exact ⟨fun _ => rfl, fun h => by cases h⟩
  | cons a L ih =>
    intro x x' hn h
    rw [List.nodup_cons] at hn
    rw [List.foldlM_cons, Option.bind_eq_bind, Option.bind_eq_some_iff] at h
    obtain ⟨y, h1, h2⟩ := h
    obtain ⟨i1, i2⟩ := ih y x' hn.2 h2
    constructor
    · intro hl
      simp only [List.mem_cons, not_or] at hl
      rw [i1 hl.2, hf a x y (fun e => hl.1 e.symm) h1]
    · intro hl
      by_cases ha : a = l
      · subst ha
        exact ⟨x, y, rfl, h1, i1 hn.1⟩
      · have hl' : l ∈ L := by
          rcases List.mem_cons.mp hl with e | e
          · exact absurd e.symm ha
          · exact e
        obtain ⟨z, z', e1, e2, e3⟩ := i2 hl'
        exact ⟨z, z', e1.trans (hf a x y ha h1), e2, e3⟩

theorem setLayer_view (s : E) (a l : Nat) (ls : Layer.State) (h : a ≠ l) : (setLayer s a ls).layers l = s.layers l := by
  simp only [setLayer, Midi.upd]; rw [if_neg (fun e => h e.symm)]

theorem setLayer_at (s : E) (l : Nat) (ls : Layer.State) : (setLayer s l ls).layers l = ls := by
  simp [setLayer, Midi.upd]

theorem noteOffLayer_layers (hn : NoOffBy c) {disp : E → Int → Int → ℚ → Option E} {d n : Int} {v u : ℚ} {sh sh' : E × Option Nat}
    {a : Nat} (h : noteOffLayer c disp d n v u sh a = some sh') :
    sh'.1.midi = sh.1.midi ∧
    sh'.1.layers = (setLayer sh.1 a (Layer.registerNoteOff (c.regions a) sh.1.midi (sh.1.layers a) n v u).1).layers := by
  obtain ⟨s, head⟩ := sh
  obtain ⟨s', head'⟩ := sh'
  unfold noteOffLayer at h
  simp only at h
  split at h
  · split at h
    · cases h; exact ⟨rfl, rfl⟩
    · rw [checkOffGroups_id hn] at h
      obtain ⟨vm, _, rfl⟩ := start_eq h
      exact ⟨rfl, rfl⟩
  · cases h; exact ⟨rfl, rfl⟩

theorem noteOnLayer_layers (hn : NoOffBy c) {d n : Int} {v u : ℚ} {sh sh' : E × Option Nat} {a : Nat}
    (h : noteOnLayer c d n v u sh a = some sh') :
    sh'.1.midi = sh.1.midi ∧
    sh'.1.layers = (setLayer sh.1 a (Layer.registerNoteOn (c.regions a) sh.1.midi (sh.1.layers a) n v u).1).layers := by
  obtain ⟨s, head⟩ := sh
  obtain ⟨s', head'⟩ := sh'
  unfold noteOnLayer at h
  simp only at h
  split at h
  · rw [checkOffGroups_id hn] at h
    obtain ⟨vm, _, rfl⟩ := start_eq h
    exact ⟨rfl, rfl⟩
  · cases h; exact ⟨rfl, rfl⟩

/-- The pedal part of the state of a layer. -/
def ped (s : Layer.State) : Bool × Bool × List (Int × ℚ) × List (Int × ℚ) :=
  (s.sustainPressed, s.sostenutoPressed, s.delayedSustain, s.delayedSostenuto)

theorem registerNoteOn_ped (r : Region) (m : Midi.State) (s : Layer.State) (n : Int) (v u : ℚ) :
    ped (Layer.registerNoteOn r m s n v u).1 = ped s := by
  have h0 : ∀ b : Bool, ped (if b then Layer.sequenceStep r s else s) = ped s := by
    intro b; cases b <;> rfl
  unfold Layer.registerNoteOn
  dsimp only
  generalize hx : (if containsWithEnd r.keyRange n then Layer.sequenceStep r s else s) = x
  have : ped x = ped s := by rw [← hx]; exact h0 _
  by_cases h1 : (!Layer.isSwitchedOn x || !containsWithEnd r.polyAftertouchRange (Layer.polyAftertouch m n)) = true
  · rw [if_pos h1]; exact this
  · rw [if_neg h1]
    by_cases h2 : (!r.triggerOnNote) = true
    · rw [if_pos h2]; exact this
    · rw [if_neg h2]; exact this

theorem setKeySwitched_ped (b : Bool) (l : Nat) (ls : List Nat) : ∀ s : E,
    ped ((setKeySwitched s ls b).layers l) = ped (s.layers l) := by
  induction ls with
  | nil => intro s; rfl
  | cons a tl ih =>
    intro s
    refine (ih (setLayer s a { s.layers a with keySwitched := b })).trans ?_
    by_cases h : a = l
    · subst h; rw [setLayer_at]; rfl
    · rw [setLayer_view _ _ _ _ h]

theorem setKeySwitched_away (b : Bool) (l : Nat) (ls : List Nat) : ∀ s : E, l ∉ ls → (setKeySwitched s ls b).layers l = s.layers l := by
  induction ls with
  | nil => intro s _; rfl
  | cons a tl ih =>
    intro s h
    simp only [List.mem_cons, not_or] at h
    refine (ih (setLayer s a { s.layers a with keySwitched := b }) h.2).trans ?_
    rw [setLayer_view _ _ _ _ (fun e => h.1 e.symm)]

theorem noteOffSwitches_away (s : E) (n : Int) (l : Nat) (hq : NoHold (c.regions l)) :
    (noteOffSwitches c s n).layers l = s.layers l ∧ (noteOffSwitches c s n).midi = s.midi := by
  unfold noteOffSwitches
  constructor
  · rw [setKeySwitched_away, setKeySwitched_away]
    · simp [upLayers, hq.1]
    · simp [downLayers, hq.2]
  · simp only [setKeySwitched_frame]

theorem noteOnSwitches_ped (s : E) (n : Int) (l : Nat) : ped ((noteOnSwitches c s n).layers l) = ped (s.layers l) := by
  unfold noteOnSwitches
  simp only [setKeySwitched_ped]
  split
  · rfl
  · simp only
    split
    · split
      · exact setKeySwitched_ped _ _ _ _
      · rfl
    · rfl

theorem updatePrevious_ped (s : E) (n : Int) (l : Nat) : ped ((updatePrevious c s n).layers l) = ped (s.layers l) := by
  unfold updatePrevious
  generalize previousLayers c = L
  induction L generalizing s with
  | nil => rfl
  | cons a L ih =>
    rw [List.foldl_cons, ih]
    by_cases h : a = l
    · subst h; rw [setLayer_at]; rfl
    · rw [setLayer_view _ _ _ _ h]

theorem noteOn_ped (hn : NoOffBy c) {s s' : E} {d n : Int} {v : ℚ} (l : Nat) (h : hdNoteOn c s d n v = some s') :
    ped (s'.layers l) = ped (s.layers l) := by
  unfold hdNoteOn noteOnDispatch at h
  simp only [Option.bind_eq_bind, Option.bind_eq_some_iff, Option.pure_def, Option.some.injEq] at h
  obtain ⟨⟨s1, hd⟩, h1, rfl⟩ := h
  rw [updatePrevious_ped]
  obtain ⟨f1, f2⟩ := fold_at _ (fun sh : E × Option Nat => ped (sh.1.layers l)) l (by
    intro a x x' ha hx
    rw [(noteOnLayer_layers hn hx).2, setLayer_view _ _ _ _ ha]) _ _ _ (noteLayers_nodup n) h1
  have h0 : ped ((noteOnSwitches c (draw (if (lastLayers c n).isEmpty then
      { s with midi := Midi.noteOn s.midi d n v (c.midiRand s.draws).1 (c.midiRand s.draws).2 } else s)) n).layers l) = ped (s.layers l) := by
    rw [noteOnSwitches_ped]
    split <;> rfl
  by_cases hl : l ∈ noteLayers c n
  · obtain ⟨y, y', e1, e2, e3⟩ := f2 hl
    refine e3.trans ?_
    rw [(noteOnLayer_layers hn e2).2, setLayer_at, registerNoteOn_ped]
    exact e1.trans h0
  · exact (f1 hl).trans h0

theorem midiNoteOff_view (m : Midi.State) (d n : Int) (v a b : ℚ) :
    (Midi.noteOff m d n v a b).polyAftertouch = m.polyAftertouch ∧ (Midi.noteOff m d n v a b).lastNoteVelocities = m.lastNoteVelocities := by
  unfold Midi.noteOff
  split <;> exact ⟨rfl, rfl⟩

/-- Without the sostenuto pedal, nothing is caught. -/
def Calm (s : Layer.State) : Prop := s.sostenutoPressed = false → s.delayedSostenuto = []

theorem sostenutoed_iff (s : Layer.State) (n : Int) : Layer.isNoteSostenutoed s n = decide (n ∈ s.delayedSostenuto.map Prod.fst) := by
  unfold Layer.isNoteSostenutoed
  rw [Bool.eq_iff_iff]
  simp [List.any_eq_true]

/-- The decision at a note-off. -/
theorem registerNoteOff_release {r : Region} (hr : IsRelease r) (m : Midi.State) (s : Layer.State) (n : Int) (v u : ℚ) (hs : Calm s) :
    Layer.registerNoteOff r m s n v u =
      if Layer.isSwitchedOn s && containsWithEnd r.polyAftertouchRange (Layer.polyAftertouch m n) && r.triggerOnNote
          && containsWithEnd r.velocityRange v && containsWithEnd r.keyRange n && Layer.randOk r u
      then (if n ∈ s.delayedSostenuto.map Prod.fst then (s, false)
        else if s.sustainPressed then (Layer.delaySustainRelease r s n (Layer.noteVelocity m n), false) else (s, true))
      else (s, false) := by
  have hcatch : n ∈ s.delayedSostenuto.map Prod.fst → s.sostenutoPressed = true := by
    intro h
    by_contra hc
    rw [hs (by simpa using hc)] at h
    cases h
  have hbool : Layer.registerNoteOff r m s n v u =
      if Layer.isSwitchedOn s && containsWithEnd r.polyAftertouchRange (Layer.polyAftertouch m n) && r.triggerOnNote
          && containsWithEnd r.velocityRange v && containsWithEnd r.keyRange n && Layer.randOk r u
      then (if Layer.isNoteSostenutoed s n then (s, false)
        else if s.sustainPressed then (Layer.delaySustainRelease r s n (Layer.noteVelocity m n), false) else (s, true))
      else (s, false) := by
    unfold Layer.registerNoteOff
    simp only [hr.trigger, reduceCtorEq, if_false, if_true]
    cases hso : Layer.isNoteSostenutoed s n
    · cases Layer.isSwitchedOn s <;> cases containsWithEnd r.polyAftertouchRange (Layer.polyAftertouch m n) <;> cases r.triggerOnNote <;>
        cases containsWithEnd r.velocityRange v <;> cases containsWithEnd r.keyRange n <;> cases Layer.randOk r u <;> simp
    · have hp := hcatch (by rw [sostenutoed_iff] at hso; simpa using hso)
      cases Layer.isSwitchedOn s <;> cases containsWithEnd r.polyAftertouchRange (Layer.polyAftertouch m n) <;> cases r.triggerOnNote <;>
        cases containsWithEnd r.velocityRange v <;> cases containsWithEnd r.keyRange n <;> cases Layer.randOk r u <;> simp [hp]
  rw [hbool, sostenutoed_iff]
  simp only [decide_eq_true_eq]

/-- The layers after a note-off, seen from layer `l`. -/
theorem noteOff_layer (hn : NoOffBy c) {s s' : E} {d n : Int} {v : ℚ} {l : Nat} (hl : l < c.numLayers) (hq : NoHold (c.regions l))
    (h : hdNoteOff c s d n v = some s') :
    ∃ m : Midi.State, m.polyAftertouch = s.midi.polyAftertouch ∧ m.lastNoteVelocities = s.midi.lastNoteVelocities ∧
      s'.layers l = if containsWithEnd (c.regions l).keyRange n then
          (Layer.registerNoteOff (c.regions l) m (s.layers l) n (Layer.noteVelocity s.midi n) (c.rand s.draws)).1
        else s.layers l := by
  unfold hdNoteOff at h
  simp only at h
  have key : ∀ s0 : E, (s0.midi.polyAftertouch = s.midi.polyAftertouch ∧ s0.midi.lastNoteVelocities = s.midi.lastNoteVelocities) →
      s0.layers = s.layers → s0.draws = s.draws →
      noteOffDispatch c (fuel (eachVoice (fun vm i => voiceNoteOff c.toEnv vm i d n) s0))
        (eachVoice (fun vm i => voiceNoteOff c.toEnv vm i d n) s0) d n (Layer.noteVelocity s0.midi n) = some s' →
      ∃ m : Midi.State, m.polyAftertouch = s.midi.polyAftertouch ∧ m.lastNoteVelocities = s.midi.lastNoteVelocities ∧
      s'.layers l = if containsWithEnd (c.regions l).keyRange n then
          (Layer.registerNoteOff (c.regions l) m (s.layers l) n (Layer.noteVelocity s.midi n) (c.rand s.draws)).1
        else s.layers l := by
    intro s0 hm hla hdr h
    refine ⟨s0.midi, hm.1, hm.2, ?_⟩
    unfold fuel noteOffDispatch at h
    simp only [Option.bind_eq_bind, Option.bind_eq_some_iff, Option.pure_def, Option.some.injEq] at h
    obtain ⟨⟨s1, hd⟩, h1, rfl⟩ := h
    obtain ⟨f1, f2⟩ := fold_at _ (fun sh : E × Option Nat => (sh.1.midi, sh.1.layers l)) l (by
      intro a x x' ha hx
      rw [(noteOffLayer_layers hn hx).2, (noteOffLayer_layers hn hx).1, setLayer_view _ _ _ _ ha]) _ _ _ (noteLayers_nodup n) h1
    have hv : Layer.noteVelocity s0.midi n = Layer.noteVelocity s.midi n := by unfold Layer.noteVelocity; rw [hm.2]
    obtain ⟨g1, g2⟩ := noteOffSwitches_away (c := c) (draw (eachVoice (fun vm i => voiceNoteOff c.toEnv vm i d n) s0)) n l hq
    by_cases hk : containsWithEnd (c.regions l).keyRange n = true
    · have hmem : l ∈ noteLayers c n := by simp [noteLayers, hl, hk]
      obtain ⟨y, y', e1, e2, e3⟩ := f2 hmem
      simp only [Prod.mk.injEq] at e1 e3
      rw [if_pos hk]
      refine e3.2.trans ?_
      rw [(noteOffLayer_layers hn e2).2, setLayer_at, e1.1, e1.2, g1, g2, hv]
      show (Layer.registerNoteOff (c.regions l) s0.midi (s0.layers l) n _ (c.rand s0.draws)).1 = _
      rw [hla, hdr]
    · have hmem : l ∉ noteLayers c n := by simp [noteLayers, hl, hk]
      rw [if_neg hk]
      have := f1 hmem
      simp only [Prod.mk.injEq] at this
      refine this.2.trans ?_
      rw [g1]
      show s0.layers l = _
      rw [hla]
  by_cases he : (lastLayers c n).isEmpty = true
  · rw [if_pos he] at h
    exact key { s with midi := Midi.noteOff s.midi d n v (c.midiRand s.draws).1 (c.midiRand s.draws).2 }
      (midiNoteOff_view _ _ _ _ _ _) rfl rfl h
  · rw [if_neg he] at h
    exact key s ⟨rfl, rfl⟩ rfl rfl h

theorem startReleases_layers {l : Nat} {d : Int} {sh sh' : E × Option Nat} {L : List (Int × ℚ)}
    (h : startReleases c l d sh L = some sh') : sh'.1.layers = sh.1.layers ∧ sh'.1.midi = sh.1.midi := by
  unfold startReleases at h
  induction L generalizing sh with
  | nil => cases h; exact ⟨rfl, rfl⟩
  | cons p L ih =>
    rw [List.foldlM_cons, Option.bind_eq_bind, Option.bind_eq_some_iff] at h
    obtain ⟨⟨s1, hd⟩, h1, h2⟩ := h
    obtain ⟨vm, _, rfl⟩ := start_eq h1
    have := ih (sh := ({ sh.1 with vm := vm }, hd)) h2
    exact ⟨this.1, this.2⟩

/-- The pedal part of the dispatch of a controller changes only the layer itself, and there only the waiting releases. -/
theorem ccPedals_layers {d : Int} {cc : Nat} {v : ℚ} {sh sh' : E × Option Nat} {a : Nat} (h : ccPedals c d cc v sh a = some sh') :
    sh'.1.midi = sh.1.midi ∧ (∀ l, l ≠ a → sh'.1.layers l = sh.1.layers l) := by
  unfold ccPedals at h
  rw [Option.bind_eq_bind, Option.bind_eq_some_iff] at h
  obtain ⟨sh1, h1, h2⟩ := h
  have clr : ∀ (s : E) (ls : Layer.State), ∀ l, l ≠ a → (setLayer s a ls).layers l = s.layers l :=
    fun s ls l hl => setLayer_view _ _ _ _ (fun e => hl e.symm)
  have a1 : sh1.1.midi = sh.1.midi ∧ (∀ l, l ≠ a → sh1.1.layers l = sh.1.layers l) := by
    unfold sustainLift at h1
    simp only at h1
    split at h1
    · unfold startDelayedSustain at h1
      simp only at h1
      split at h1
      · cases h1; exact ⟨rfl, clr _ _⟩
      · rw [Option.bind_eq_bind, Option.bind_eq_some_iff] at h1
        obtain ⟨sh2, h3, h4⟩ := h1
        cases h4
        obtain ⟨p1, p2⟩ := startReleases_layers h3
        exact ⟨p2, fun l hl => (clr _ _ l hl).trans (by rw [p1])⟩
    · cases h1; exact ⟨rfl, fun _ _ => rfl⟩
  have a2 : sh'.1.midi = sh1.1.midi ∧ (∀ l, l ≠ a → sh'.1.layers l = sh1.1.layers l) := by
    unfold sostenutoLift at h2
    simp only at h2
    split at h2
    · split at h2
      · cases h2; exact ⟨rfl, clr _ _⟩
      · unfold startDelayedSostenuto at h2
        simp only at h2
        split at h2
        · cases h2; exact ⟨rfl, clr _ _⟩
        · rw [Option.bind_eq_bind, Option.bind_eq_some_iff] at h2
          obtain ⟨sh2, h3, h4⟩ := h2
          cases h4
          obtain ⟨p1, p2⟩ := startReleases_layers h3
          exact ⟨p2, fun l hl => (clr _ _ l hl).trans (by rw [p1])⟩
    · cases h2; exact ⟨rfl, fun _ _ => rfl⟩
  exact ⟨a2.1.trans a1.1, fun l hl => (a2.2 l hl).trans (a1.2 l hl)⟩

theorem ccLayer_layers (hn : NoOffBy c) {d : Int} {cc : Nat} {v u : ℚ} {arg : Int} {sh sh' : E × Option Nat} {a : Nat}
    (h : ccLayer c d cc v u arg sh a = some sh') :
    ∃ sh1, ccPedals c d cc v sh a = some sh1 ∧ sh'.1.midi = sh.1.midi ∧
      sh'.1.layers = (setLayer sh1.1 a (Layer.registerCC (c.regions a) sh1.1.midi (sh1.1.layers a) cc v u arg).1).layers := by
  unfold ccLayer at h
  rw [Option.bind_eq_bind, Option.bind_eq_some_iff] at h
  obtain ⟨⟨s1, head⟩, h1, h2⟩ := h
  refine ⟨(s1, head), h1, ?_⟩
  have hm := (ccPedals_layers h1).1
  simp only at h2
  split at h2
  · rw [checkOffGroups_id hn] at h2
    obtain ⟨s', head'⟩ := sh'
    obtain ⟨vm, _, rfl⟩ := start_eq h2
    exact ⟨hm, rfl⟩
  · cases h2; exact ⟨hm, rfl⟩

theorem take_snoc {α : Type} (L : List α) (a : α) (T : List α) (n : Nat) (h : L.length ≤ n) :
    ((if L.length = n then L else L ++ [a]) ++ T).take n = (L ++ a :: T).take n := by
  split
  · rename_i e
    subst e
    simp
  · simp

theorem fillSostenuto (r : Region) {α : Type} (f : α → Int × ℚ) (L : List α) : ∀ s : Layer.State, s.delayedSostenuto.length ≤ r.releaseCapacity →
    L.foldl (fun s k => Layer.delaySostenutoRelease r s (f k).1 (f k).2) s =
      { s with delayedSostenuto := (s.delayedSostenuto ++ L.map f).take r.releaseCapacity } := by
  induction L with
  | nil => intro s h; simp [List.take_of_length_le h]
  | cons k L ih =>
    intro s h
    have e : (Layer.delaySostenutoRelease r s (f k).1 (f k).2) =
        { s with delayedSostenuto := if s.delayedSostenuto.length = r.releaseCapacity then s.delayedSostenuto else s.delayedSostenuto ++ [f k] } := by
      unfold Layer.delaySostenutoRelease; split <;> rfl
    rw [List.foldl_cons, ih, e]
    · simp only [List.map_cons]
      rw [take_snoc _ _ _ _ h]
    · rw [e]
      dsimp only
      split
      · exact h
      · simp only [List.length_append, List.length_singleton]; omega

theorem fillSustain (r : Region) (L : List (Int × ℚ)) : ∀ s : Layer.State, s.delayedSustain.length ≤ r.releaseCapacity →
    L.foldl (fun s p => Layer.delaySustainRelease r s p.1 p.2) s =
      { s with delayedSustain := (s.delayedSustain ++ L).take r.releaseCapacity } := by
  induction L with
  | nil => intro s h; simp [List.take_of_length_le h]
  | cons k L ih =>
    intro s h
    have e : (Layer.delaySustainRelease r s k.1 k.2) =
        { s with delayedSustain := if s.delayedSustain.length = r.releaseCapacity then s.delayedSustain else s.delayedSustain ++ [k] } := by
      unfold Layer.delaySustainRelease; split <;> rfl
    rw [List.foldl_cons, ih, e]
    · dsimp only
      rw [take_snoc _ _ _ _ h]
    · rw [e]
      dsimp only
      split
      · exact h
      · simp only [List.length_append, List.length_singleton]; omega

theorem store_eq (r : Region) (m : Midi.State) (s : Layer.State) (h : s.delayedSostenuto = []) :
    Layer.storeSostenutoNotes r m s = { s with delayedSostenuto := heldKeys r m } := by
  have := fillSostenuto r (fun k : Nat => ((k : Int), Layer.noteVelocity m k))
    ((List.range 128).filter (fun k : Nat => containsWithEnd r.keyRange (k : Int) && m.noteStates k)) s (by simp [h])
  refine this.trans ?_
  rw [h]; rfl

/-- The sostenuto pedal and what it has caught, after a value. -/
def caughtAfter (r : Region) (m : Midi.State) (v : ℚ) (p : Bool) (L : List (Int × ℚ)) : List (Int × ℚ) :=
  if r.checkSostenuto && decide (r.sostenutoThreshold ≤ v) then (if p then L else heldKeys r m) else []

theorem updateCC_ped {r : Region} (hne : r.sustainCC ≠ r.sostenutoCC) (m : Midi.State) (s : Layer.State) (k : Nat) (v : ℚ) (hs : Calm s) :
    ped (Layer.updateCCState r m s k v) =
      if k = r.sustainCC then (r.checkSustain && decide (r.sustainThreshold ≤ v), s.sostenutoPressed, s.delayedSustain, s.delayedSostenuto)
      else if k = r.sostenutoCC then (s.sustainPressed, r.checkSostenuto && decide (r.sostenutoThreshold ≤ v), s.delayedSustain,
        caughtAfter r m v s.sostenutoPressed s.delayedSostenuto)
      else ped s := by
  have h3 : ∀ s1 : Layer.State, ped (Layer.updateCondition r s1 k v) = ped s1 := by
    intro s1; unfold Layer.updateCondition; split <;> rfl
  unfold Layer.updateCCState
  rw [h3]
  by_cases h1 : k = r.sustainCC
  · have h2 : k ≠ r.sostenutoCC := fun e => hne (h1.symm.trans e)
    simp [Layer.updateSustain, Layer.updateSostenuto, h1, hne, ped]
  · by_cases h2 : k = r.sostenutoCC
    · simp only [Layer.updateSustain, if_neg h1, Layer.updateSostenuto, if_pos h2]
      cases hn : (r.checkSostenuto && decide (r.sostenutoThreshold ≤ v)) <;> cases hp : s.sostenutoPressed
      · simp [ped, caughtAfter, hp, hn, hs hp]
      · simp [ped, caughtAfter, hp, hn]
      · rw [store_eq r m s (hs hp)]
        simp [ped, caughtAfter, hn]
      · simp [ped, caughtAfter, hp, hn]
    · simp [Layer.updateSustain, Layer.updateSostenuto, h1, h2]

theorem registerCC_ped {r : Region} (hcc : r.triggerOnCC = false) (m : Midi.State) (s : Layer.State) (k : Nat) (v u : ℚ) (arg : Int) :
    ped (Layer.registerCC r m s k v u arg).1 = ped (Layer.updateCCState r m s k v) := by
  unfold Layer.registerCC
  simp [hcc]

/-- What always holds of the pedal part of a layer. -/
structure Tidy (r : Region) (s : Layer.State) : Prop where
  calm : Calm s
  off : r.checkSostenuto = false → s.sostenutoPressed = false
  offSustain : r.checkSustain = false → s.delayedSustain = [] ∧ s.sustainPressed = false
  room : s.delayedSustain.length ≤ r.releaseCapacity

/-- The pedal state of a layer after a controller. -/
def pedAfter (r : Region) (m : Midi.State) (k : Nat) (v : ℚ) (p : Bool × Bool × List (Int × ℚ) × List (Int × ℚ)) :
    Bool × Bool × List (Int × ℚ) × List (Int × ℚ) :=
  if k = r.sustainCC then
    (r.checkSustain && decide (r.sustainThreshold ≤ v), p.2.1,
      if r.checkSustain && decide (v < r.sustainThreshold) then [] else p.2.2.1, p.2.2.2)
  else if k = r.sostenutoCC then
    (p.1, r.checkSostenuto && decide (r.sostenutoThreshold ≤ v),
      if r.checkSostenuto && decide (r.sostenutoThreshold ≤ v) then p.2.2.1
      else if p.1 then (p.2.2.1 ++ p.2.2.2).take r.releaseCapacity else p.2.2.1,
      caughtAfter r m v p.2.1 p.2.2.2)
  else p

/-- The pedal part of the dispatch for the layer itself. -/
theorem ccPedals_self {d : Int} {k : Nat} {v : ℚ} {sh sh' : E × Option Nat} {l : Nat} (hne : (c.regions l).sustainCC ≠ (c.regions l).sostenutoCC)
    (ht : Tidy (c.regions l) (sh.1.layers l)) (h : ccPedals c d k v sh l = some sh') :
    ped (sh'.1.layers l) =
      ((sh.1.layers l).sustainPressed, (sh.1.layers l).sostenutoPressed,
        (if k = (c.regions l).sustainCC then
          (if (c.regions l).checkSustain && decide (v < (c.regions l).sustainThreshold) then [] else (sh.1.layers l).delayedSustain)
        else if k = (c.regions l).sostenutoCC then
          (if (c.regions l).checkSostenuto && decide (v < (c.regions l).sostenutoThreshold) && (sh.1.layers l).sustainPressed then
            ((sh.1.layers l).delayedSustain ++ (sh.1.layers l).delayedSostenuto).take (c.regions l).releaseCapacity else (sh.1.layers l).delayedSustain)
        else (sh.1.layers l).delayedSustain),
        (if k = (c.regions l).sostenutoCC ∧ (c.regions l).checkSostenuto = true ∧ v < (c.regions l).sostenutoThreshold then []
         else (sh.1.layers l).delayedSostenuto)) := by
  unfold ccPedals at h
  rw [Option.bind_eq_bind, Option.bind_eq_some_iff] at h
  obtain ⟨sh2, q1, q2⟩ := h
  by_cases h1 : k = (c.regions l).sustainCC
  · have h2 : k ≠ (c.regions l).sostenutoCC := fun e => hne (h1.symm.trans e)
    have : sostenutoLift c d k v sh2 l = some sh2 := by
      unfold sostenutoLift; simp [h2]
    rw [this] at q2; cases q2
    have hno : ¬ (k = (c.regions l).sostenutoCC ∧ (c.regions l).checkSostenuto = true ∧ v < (c.regions l).sostenutoThreshold) := fun e => h2 e.1
    rw [if_pos h1, if_neg hno]
    unfold sustainLift at q1
    simp only [h1, decide_true, Bool.and_true] at q1
    split at q1
    · rename_i hcond
      rw [if_pos hcond]
      unfold startDelayedSustain at q1
      simp only at q1
      split at q1
      · cases q1
        simp only [setLayer_at]; rfl
      · rw [Option.bind_eq_bind, Option.bind_eq_some_iff] at q1
        obtain ⟨sh3, q4, q5⟩ := q1
        cases q5
        simp only [setLayer_at, (startReleases_layers q4).1]; rfl
    · rename_i hcond
      rw [if_neg hcond]
      cases q1; rfl
  · have : sustainLift c d k v sh l = some sh := by
      unfold sustainLift; simp [h1]
    rw [this] at q1; cases q1
    rw [if_neg h1]
    unfold sostenutoLift at q2
    by_cases h2 : k = (c.regions l).sostenutoCC
    · simp only [h2, decide_true, Bool.and_true] at q2
      rw [if_pos h2]
      split at q2
      · rename_i hcond
        have hcond' := hcond
        simp only [Bool.and_eq_true, decide_eq_true_eq] at hcond'
        have hyes : k = (c.regions l).sostenutoCC ∧ (c.regions l).checkSostenuto = true ∧ v < (c.regions l).sostenutoThreshold := ⟨h2, hcond'⟩
        rw [if_pos hyes, hcond]
        split at q2
        · rename_i hdown
          cases q2
          simp only [setLayer_at, handOver, hdown]
          rw [fillSustain _ _ _ ht.room]
          simp [ped, hdown]
        · rename_i hdown
          rw [if_neg (by simpa using hdown)]
          unfold startDelayedSostenuto at q2
          simp only at q2
          split at q2
          · cases q2
            simp only [setLayer_at]; rfl
          · rw [Option.bind_eq_bind, Option.bind_eq_some_iff] at q2
            obtain ⟨sh3, q4, q5⟩ := q2
            cases q5
            simp only [setLayer_at, (startReleases_layers q4).1]; rfl
      · rename_i hcond
        rw [Bool.not_eq_true] at hcond
        rw [hcond]
        have : ¬ (k = (c.regions l).sostenutoCC ∧ (c.regions l).checkSostenuto = true ∧ v < (c.regions l).sostenutoThreshold) := by
          rintro ⟨_, a, b⟩
          simp [a, b] at hcond
        rw [if_neg this]
        cases q2
        rfl
    · simp only [h2, decide_false, Bool.and_false, Bool.false_and, Bool.false_eq_true, if_false] at q2
      cases q2
      have hno : ¬ (k = (c.regions l).sostenutoCC ∧ (c.regions l).checkSostenuto = true ∧ v < (c.regions l).sostenutoThreshold) := fun e => h2 e.1
      rw [if_neg h2, if_neg hno]
      rfl

/-- Layer `l` after the dispatch of a controller. -/
theorem ccDispatch_ped (hn : NoOffBy c) {s s' : E} {d : Int} {k : Nat} {v : ℚ} {arg : Int} {l : Nat} (hl : l < c.numLayers)
    (hr : IsRelease (c.regions l)) (ht : Tidy (c.regions l) (s.layers l))
    (h : ccDispatch c s d k v arg = some s') : ped (s'.layers l) = pedAfter (c.regions l) s.midi k v (ped (s.layers l)) := by
  unfold ccDispatch at h
  simp only [Option.bind_eq_bind, Option.bind_eq_some_iff, Option.pure_def, Option.some.injEq] at h
  obtain ⟨⟨s1, hd'⟩, h1, rfl⟩ := h
  obtain ⟨f1, f2⟩ := fold_at _ (fun sh : E × Option Nat => (sh.1.midi, sh.1.layers l)) l (by
    intro a x x' ha hx
    obtain ⟨sh1, e1, e2, e3⟩ := ccLayer_layers hn hx
    rw [e2, e3, setLayer_view _ _ _ _ ha, (ccPedals_layers e1).2 l (fun e => ha e.symm)]) _ _ _ (ccLayers_nodup k) h1
  by_cases hmem : l ∈ ccLayers c k
  · obtain ⟨y, y', e1, e2, e3⟩ := f2 hmem
    obtain ⟨sh1, g1, _, g3⟩ := ccLayer_layers hn e2
    simp only [Prod.mk.injEq] at e1 e3
    have e1' : y.1.layers l = s.layers l := e1.2
    have e1m : y.1.midi = s.midi := e1.1
    refine (congrArg ped e3.2).trans ?_
    rw [g3, setLayer_at, registerCC_ped hr.notCC]
    have key := ccPedals_self hr.pedals (by rw [e1']; exact ht) g1
    have hm1 : sh1.1.midi = s.midi := (ccPedals_layers g1).1.trans e1m
    rw [e1'] at key
    simp only [ped, Prod.mk.injEq] at key
    obtain ⟨k1, k2, k3, k4⟩ := key
    have hcalm : Calm (sh1.1.layers l) := by
      intro hp
      rw [k2] at hp
      rw [k4, ht.calm hp]
      split <;> rfl
    rw [updateCC_ped hr.pedals _ _ _ _ hcalm, k1, k2, k3, k4, hm1]
    have hnot : ∀ a b : ℚ, decide (a ≤ b) = !decide (b < a) := by
      intro a b
      by_cases hab : b < a
      · simp [hab, not_le.mpr hab]
      · simp [hab, not_lt.mp hab]
    unfold pedAfter
    by_cases hks : k = (c.regions l).sustainCC
    · have hks2 : k ≠ (c.regions l).sostenutoCC := fun e => hr.pedals (hks.symm.trans e)
      have hno : ¬ (k = (c.regions l).sostenutoCC ∧ (c.regions l).checkSostenuto = true ∧ v < (c.regions l).sostenutoThreshold) := fun e => hks2 e.1
      rw [if_pos hks, if_pos hks, if_pos hks, if_neg hno]
      rfl
    · rw [if_neg hks, if_neg hks, if_neg hks]
      by_cases hks2 : k = (c.regions l).sostenutoCC
      · rw [if_pos hks2, if_pos hks2, if_pos hks2]
        by_cases hch : (c.regions l).checkSostenuto = true
        · by_cases hlt : v < (c.regions l).sostenutoThreshold
          · have hge : ¬ (c.regions l).sostenutoThreshold ≤ v := not_le.mpr hlt
            cases hh : (s.layers l).sustainPressed <;> simp [hch, hlt, hks2, caughtAfter, ped, hge, hh]
          · have hge : (c.regions l).sostenutoThreshold ≤ v := not_lt.mp hlt
            cases hh : (s.layers l).sostenutoPressed <;> simp [hch, hlt, caughtAfter, ped, hge, hh]
        · rw [Bool.not_eq_true] at hch
          have hp := ht.off hch
          have hc := ht.calm hp
          have hroom := ht.room
          simp [hch, caughtAfter, ped, hc, List.take_of_length_le hroom]
      · rw [if_neg hks2, if_neg hks2]
        simp only [ped, k1, k2, k3, k4, if_neg hks, if_neg hks2]
        rw [if_neg (fun e => hks2 e.1)]
  · have hks : k ≠ (c.regions l).sustainCC := by
      intro e
      apply hmem
      simp [ccLayers, hl, e, hr.trigger]
    have hks2 : k ≠ (c.regions l).sostenutoCC := by
      intro e
      apply hmem
      simp [ccLayers, hl, e, hr.trigger]
    unfold pedAfter
    rw [if_neg hks, if_neg hks2]
    have := f1 hmem
    simp only [Prod.mk.injEq] at this
    exact congrArg ped this.2

theorem performHdcc_ped (hn : NoOffBy c) {s s' : E} {d : Int} {k : Nat} {v : ℚ} {b : Bool} {arg : Int} {l : Nat} (hl : l < c.numLayers)
    (hr : IsRelease (c.regions l)) (ht : Tidy (c.regions l) (s.layers l)) (h121 : ¬ (b = true ∧ k = 121))
    (h : performHdcc c s d k v b arg = some s') :
    ped (s'.layers l) = if isCommand b k then ped (s.layers l) else pedAfter (c.regions l) s.midi k v (ped (s.layers l)) := by
  cases hc : isCommand b k with
  | true =>
    have hb : b = true := by cases b <;> simp_all [isCommand]
    subst hb
    have : k = 120 ∨ k = 123 := by
      simp [isCommand] at hc
      rcases hc with (h1 | h1) | h1
      · exact absurd ⟨rfl, h1⟩ h121
      · exact Or.inl h1
      · exact Or.inr h1
    rw [(performHdcc_off this h).2.2]
    rfl
  | false =>
    unfold performHdcc at h
    have h1 : ¬ (b = true ∧ k = 121) := h121
    have h2 : ¬ (b = true ∧ (k = 123 ∨ k = 120)) := by
      rintro ⟨rfl, rfl | rfl⟩ <;> simp [isCommand] at hc
    rw [if_neg h1, if_neg h2] at h
    simp only [Option.bind_eq_bind, Option.bind_eq_some_iff, Option.pure_def, Option.some.injEq] at h
    obtain ⟨s1, h3, rfl⟩ := h
    have := ccDispatch_ped (s := eachVoice (fun vm i => voiceCC c.toEnv vm i d k v) s) (l := l) hn hl hr ht h3
    exact this

/-- All controllers are set: at loading and by CC 121. -/
theorem loadPed_fold {r : Region} (hr : IsRelease r) (m : Midi.State) (f : Nat → ℚ) (L : List Nat) : ∀ ls : Layer.State, Calm ls →
    ped (L.foldl (fun ls cc => Layer.updateCCState r m ls cc (f cc)) ls) =
      (if r.sustainCC ∈ L then r.checkSustain && decide (r.sustainThreshold ≤ f r.sustainCC) else ls.sustainPressed,
        if r.sostenutoCC ∈ L then r.checkSostenuto && decide (r.sostenutoThreshold ≤ f r.sostenutoCC) else ls.sostenutoPressed,
        ls.delayedSustain,
        if r.sostenutoCC ∈ L then caughtAfter r m (f r.sostenutoCC) ls.sostenutoPressed ls.delayedSostenuto else ls.delayedSostenuto) := by
  induction L with
  | nil => intro ls _; simp [ped]
  | cons k L ih =>
    intro ls hc
    have hk := updateCC_ped hr.pedals m ls k (f k) hc
    rw [List.foldl_cons]
    have hc2 : Calm (Layer.updateCCState r m ls k (f k)) := by
      unfold Calm
      by_cases h1 : k = r.sustainCC
      · rw [if_pos h1] at hk
        simp only [ped, Prod.mk.injEq] at hk
        rw [hk.2.1, hk.2.2.2]; exact hc
      · rw [if_neg h1] at hk
        by_cases h2 : k = r.sostenutoCC
        · rw [if_pos h2] at hk
          simp only [ped, Prod.mk.injEq] at hk
          rw [hk.2.1, hk.2.2.2]
          intro h
          simp [caughtAfter, h]
        · rw [if_neg h2] at hk
          simp only [ped, Prod.mk.injEq] at hk
          rw [hk.2.1, hk.2.2.2]; exact hc
    rw [ih _ hc2]
    by_cases h1 : k = r.sustainCC
    · have h2 : ¬ r.sostenutoCC = k := fun e => hr.pedals (h1.symm.trans e.symm)
      rw [if_pos h1] at hk
      simp only [ped, Prod.mk.injEq] at hk
      rw [hk.1, hk.2.1, hk.2.2.1, hk.2.2.2, h1]
      simp [List.mem_cons, hr.pedals.symm]
    · rw [if_neg h1] at hk
      have h1' : ¬ r.sustainCC = k := fun e => h1 e.symm
      by_cases h2 : k = r.sostenutoCC
      · rw [if_pos h2] at hk
        simp only [ped, Prod.mk.injEq] at hk
        rw [hk.1, hk.2.1, hk.2.2.1, hk.2.2.2]
        subst h2
        simp only [List.mem_cons, hr.pedals, false_or, true_or, if_true]
        by_cases hnew : (r.checkSostenuto && decide (r.sostenutoThreshold ≤ f r.sostenutoCC)) = true
        · simp [caughtAfter, hnew]
        · rw [Bool.not_eq_true] at hnew
          simp [caughtAfter, hnew]
      · rw [if_neg h2] at hk
        have h2' : ¬ r.sostenutoCC = k := fun e => h2 e.symm
        simp only [ped, Prod.mk.injEq] at hk
        rw [hk.1, hk.2.1, hk.2.2.1, hk.2.2.2]
        simp [List.mem_cons, h1', h2']

/-- The layer agrees with the listener. -/
structure Agree (l : Nat) (s : E) (x : Memory) : Prop where
  state : x.state = s
  ped_eq : ped (s.layers l) = (x.down, x.sostenuto, x.waiting, x.caught)
  calm : x.sostenuto = false → x.caught = []
  off : (c.regions l).checkSostenuto = false → x.sostenuto = false
  offSustain : (c.regions l).checkSustain = false → x.waiting = [] ∧ x.down = false
  room : x.waiting.length ≤ (c.regions l).releaseCapacity

theorem Agree.tidy {l : Nat} {s : E} {x : Memory} (h : Agree (c := c) l s x) {ls : Layer.State} (hp : ped ls = ped (s.layers l)) :
    Tidy (c.regions l) ls := by
  have := hp.trans h.ped_eq
  simp only [ped, Prod.mk.injEq] at this
  obtain ⟨h1, h2, h3, h4⟩ := this
  refine ⟨?_, ?_, ?_, ?_⟩
  · unfold Calm; rw [h2, h4]; exact h.calm
  · rw [h2]; exact h.off
  · rw [h1, h3]; exact h.offSustain
  · rw [h3]; exact h.room

theorem listen_state {l : Nat} {x : Memory} {op : Op} {s' : E} (h : step c x.state op = some s') : (listen c l x op).state = s' := by
  simp [listen, h]

/-- What the listener notes, the engine left out. -/
def Memory.notes (x : Memory) : Bool × Bool × List (Int × ℚ) × List (Int × ℚ) := (x.down, x.sostenuto, x.waiting, x.caught)

theorem Agree.mk' {l : Nat} {s s' : E} {x : Memory} {op : Op} (h : Agree (c := c) l s x) (hs : step c s op = some s')
    (hp : ped (s'.layers l) = (listen c l x op).notes)
    (h1 : (listen c l x op).sostenuto = false → (listen c l x op).caught = [])
    (h2 : (c.regions l).checkSostenuto = false → (listen c l x op).sostenuto = false)
    (h3 : (c.regions l).checkSustain = false → (listen c l x op).waiting = [] ∧ (listen c l x op).down = false)
    (h4 : (listen c l x op).waiting.length ≤ (c.regions l).releaseCapacity) : Agree (c := c) l s' (listen c l x op) :=
  ⟨listen_state (by rw [h.state]; exact hs), hp, h1, h2, h3, h4⟩

theorem Agree.of_notes {l : Nat} {s s' : E} {x : Memory} {op : Op} (h : Agree (c := c) l s x) (hs : step c s op = some s') (y : Memory)
    (hy : (listen c l x op).notes = y.notes) (hp : ped (s'.layers l) = y.notes)
    (h1 : y.sostenuto = false → y.caught = [])
    (h2 : (c.regions l).checkSostenuto = false → y.sostenuto = false)
    (h3 : (c.regions l).checkSustain = false → y.waiting = [] ∧ y.down = false)
    (h4 : y.waiting.length ≤ (c.regions l).releaseCapacity) : Agree (c := c) l s' (listen c l x op) := by
  have hy' := hy
  simp only [Memory.notes, Prod.mk.injEq] at hy'
  obtain ⟨a, b, e, f⟩ := hy'
  refine h.mk' hs (hp.trans hy.symm) ?_ ?_ ?_ ?_
  · rw [b, f]; exact h1
  · rw [b]; exact h2
  · rw [e, a]; exact h3
  · rw [e]; exact h4

theorem Agree.keep {l : Nat} {s s' : E} {x : Memory} {op : Op} (h : Agree (c := c) l s x) (hs : step c s op = some s')
    (hped : ped (s'.layers l) = ped (s.layers l)) (hsend : sentCC c (c.regions l).sustainCC op = .none)
    (hsend2 : sentCC c (c.regions l).sostenutoCC op = .none) (hop : ∀ d n v, op ≠ .noteOff d n v) (hre : isReset op = false) :
    Agree (c := c) l s' (listen c l x op) := by
  refine h.of_notes hs x ?_ (hped.trans h.ped_eq) h.calm h.off h.offSustain h.room
  cases op <;> simp_all [listen, Memory.notes]

theorem Agree.sustain {l : Nat} {s s' : E} {x : Memory} {op : Op} {v : ℚ} (h : Agree (c := c) l s x) (hs : step c s op = some s')
    (hped : ped (s'.layers l) = (x.sustainTo (c.regions l) v).notes) (hsend : sentCC c (c.regions l).sustainCC op = some v)
    (hop : ∀ d n v, op ≠ .noteOff d n v) (hre : isReset op = false) :
    Agree (c := c) l s' (listen c l x op) := by
  refine h.of_notes hs (x.sustainTo (c.regions l) v) ?_ hped h.calm h.off ?_ ?_
  · cases op <;> simp_all [listen, Memory.notes]
  · intro hc
    simp [Memory.sustainTo, hc, (h.offSustain hc).1]
  · simp only [Memory.sustainTo]
    split
    · simp
    · exact h.room

theorem Agree.sostenuto {l : Nat} {s s' : E} {x : Memory} {op : Op} {v : ℚ} (h : Agree (c := c) l s x) (hs : step c s op = some s')
    (hped : ped (s'.layers l) = (x.sostenutoTo (c.regions l) v).notes) (hsend : sentCC c (c.regions l).sustainCC op = .none)
    (hsend2 : sentCC c (c.regions l).sostenutoCC op = some v) (hop : ∀ d n v, op ≠ .noteOff d n v) (hre : isReset op = false) :
    Agree (c := c) l s' (listen c l x op) := by
  refine h.of_notes hs (x.sostenutoTo (c.regions l) v) ?_ hped ?_ ?_ ?_ ?_
  · cases op <;> simp_all [listen, Memory.notes]
  · simp only [Memory.sostenutoTo]
    split
    · split
      · exact h.calm
      · simp
    · simp
  · intro hc
    simp [Memory.sostenutoTo, hc]
  · intro hc
    obtain ⟨a, b⟩ := h.offSustain hc
    simp only [Memory.sostenutoTo]
    split
    · split <;> exact ⟨a, b⟩
    · simp [a, b]
  · simp only [Memory.sostenutoTo]
    split
    · split <;> exact h.room
    · dsimp only
      split
      · rw [List.length_take]; omega
      · exact h.room

theorem heldKeys_congr (r : Region) {m m' : Midi.State} (h1 : m'.noteStates = m.noteStates) (h2 : m'.lastNoteVelocities = m.lastNoteVelocities) :
    heldKeys r m' = heldKeys r m := by
  unfold heldKeys Layer.noteVelocity
  rw [h1, h2]

theorem Agree.hdcc (hn : NoOffBy c) {l : Nat} (hl : l < c.numLayers) (hr : IsRelease (c.regions l)) {s s1 s' : E} {x : Memory} {op : Op}
    {d : Int} {k : Nat} {v : ℚ} {b : Bool} {arg : Int} (h : Agree (c := c) l s x) (hs : step c s op = some s')
    (h1 : ped (s1.layers l) = ped (s.layers l)) (hm1 : s1.midi.noteStates = s.midi.noteStates)
    (hm2 : s1.midi.lastNoteVelocities = s.midi.lastNoteVelocities) (h2 : performHdcc c s1 d k v b arg = some s')
    (hsend : ∀ j, sentCC c j op = if isCommand b k then .none else if k = j then some v else .none) (h121 : ¬ (b = true ∧ k = 121))
    (hop : ∀ d n v, op ≠ .noteOff d n v) (hre : isReset op = false) :
    Agree (c := c) l s' (listen c l x op) := by
  have key := performHdcc_ped (l := l) hn hl hr (h.tidy h1) h121 h2
  rw [h1.trans h.ped_eq] at key
  cases hc : isCommand b k with
  | true =>
    rw [hc, if_pos rfl] at key
    exact h.keep hs (key.trans h.ped_eq.symm) (by rw [hsend, hc]; rfl) (by rw [hsend, hc]; rfl) hop hre
  | false =>
    rw [hc, if_neg (by simp)] at key
    by_cases hk : k = (c.regions l).sustainCC
    · have hsd : sentCC c (c.regions l).sustainCC op = some v := by rw [hsend, hc]; simp [hk]
      refine h.sustain hs ?_ hsd hop hre
      refine key.trans ?_
      simp only [pedAfter, if_pos hk, Memory.notes, Memory.sustainTo]
    · have hsd : sentCC c (c.regions l).sustainCC op = .none := by rw [hsend, hc]; simp [hk]
      by_cases hk2 : k = (c.regions l).sostenutoCC
      · have hsd2 : sentCC c (c.regions l).sostenutoCC op = some v := by rw [hsend, hc]; simp [hk2]
        refine h.sostenuto hs ?_ hsd hsd2 hop hre
        refine key.trans ?_
        simp only [pedAfter, if_neg hk, if_pos hk2, Memory.notes, Memory.sostenutoTo, caughtAfter]
        rw [heldKeys_congr _ hm1 hm2, ← h.state]
        cases hnew : ((c.regions l).checkSostenuto && decide ((c.regions l).sostenutoThreshold ≤ v)) <;> cases hsos : x.sostenuto <;> simp [hsos]
      · refine h.keep hs ?_ hsd (by rw [hsend, hc]; simp [hk2]) hop hre
        refine key.trans ?_
        simp only [pedAfter, if_neg hk, if_neg hk2]
        exact h.ped_eq.symm

theorem Agree.noteOff (hn : NoOffBy c) {l : Nat} (hl : l < c.numLayers) (hr : IsRelease (c.regions l)) {s s' : E} {x : Memory}
    {d n : Int} {v : ℚ} (h : Agree (c := c) l s x) (hs : step c s (.noteOff d n v) = some s') :
    Agree (c := c) l s' (listen c l x (.noteOff d n v)) := by
  obtain ⟨m, m1, m2, key⟩ := noteOff_layer hn hl hr.noHold hs
  have hpa : Layer.polyAftertouch m n = Layer.polyAftertouch s.midi n := by unfold Layer.polyAftertouch; rw [m1]
  have hve : Layer.noteVelocity m n = Layer.noteVelocity s.midi n := by unfold Layer.noteVelocity; rw [m2]
  rw [registerNoteOff_release hr _ _ _ _ _ (h.tidy rfl).calm, hpa, hve] at key
  have hst := h.state
  have hpe := h.ped_eq
  have hpe' := hpe
  simp only [ped, Prod.mk.injEq] at hpe'
  obtain ⟨p1, p2, p3, p4⟩ := hpe'
  have key' : s'.layers l = if hears c s l n = true ∧ n ∉ x.caught.map Prod.fst ∧ x.down = true then
      Layer.delaySustainRelease (c.regions l) (s.layers l) n (Layer.noteVelocity s.midi n) else s.layers l := by
    rw [key, p4, p1]
    unfold hears
    by_cases hcat : n ∈ x.caught.map Prod.fst
    · simp only [hcat, if_true, not_true, false_and, and_false, if_false]
      split
      · split <;> rfl
      · rfl
    · simp only [hcat, if_false, not_false_eq_true, true_and]
      cases Layer.isSwitchedOn (s.layers l) && containsWithEnd (c.regions l).polyAftertouchRange (Layer.polyAftertouch s.midi n)
        && (c.regions l).triggerOnNote && containsWithEnd (c.regions l).velocityRange (Layer.noteVelocity s.midi n) <;>
      cases containsWithEnd (c.regions l).keyRange n <;> cases Layer.randOk (c.regions l) (c.rand s.draws) <;>
      cases x.down <;> simp
  have hroom := h.room
  refine h.of_notes hs (x.release c l n) rfl ?_ ?_ ?_ ?_ ?_
  · rw [key']
    unfold Memory.release
    rw [hst]
    by_cases hx : hears c s l n = true ∧ n ∉ x.caught.map Prod.fst ∧ x.down = true
    · rw [if_pos hx]
      by_cases hlen : x.waiting.length < (c.regions l).releaseCapacity
      · rw [if_pos ⟨hx.1, hx.2.1, hx.2.2, hlen⟩]
        simp [Layer.delaySustainRelease, p3, Nat.ne_of_lt hlen, ped, p1, p2, p4, Memory.notes]
      · rw [if_neg (fun e => hlen e.2.2.2)]
        have : x.waiting.length = (c.regions l).releaseCapacity := by omega
        simp only [Layer.delaySustainRelease, p3, this, if_true]
        exact hpe
    · rw [if_neg hx, if_neg (fun e => hx ⟨e.1, e.2.1, e.2.2.1⟩)]
      exact hpe
  · unfold Memory.release; split <;> exact h.calm
  · unfold Memory.release; split <;> exact h.off
  · intro hc
    unfold Memory.release
    rw [if_neg (fun e => by rw [(h.offSustain hc).2] at e; exact absurd e.2.2.1 (by decide))]
    exact h.offSustain hc
  · unfold Memory.release; split
    · rename_i e
      simp only [List.length_append, List.length_singleton]
      have := e.2.2.2
      omega
    · exact hroom

theorem resetAll_midi (d : Int) (L : List Nat) : ∀ m : Midi.State,
    (L.foldl (fun m cc => Midi.ccEvent m d cc (c.defaultCC cc)) m).noteStates = m.noteStates ∧
    (L.foldl (fun m cc => Midi.ccEvent m d cc (c.defaultCC cc)) m).lastNoteVelocities = m.lastNoteVelocities := by
  induction L with
  | nil => intro m; exact ⟨rfl, rfl⟩
  | cons k L ih => intro m; rw [List.foldl_cons]; exact ih _

/-- The pedal part of a layer after CC 121. -/
theorem reset_ped (s : E) (d : Int) {l : Nat} (hl : l < c.numLayers) (hr : IsRelease (c.regions l)) (hc : Calm (s.layers l)) :
    ped ((resetAllControllers c s d).layers l) =
      ((c.regions l).checkSustain && decide ((c.regions l).sustainThreshold ≤ c.defaultCC (c.regions l).sustainCC),
        (c.regions l).checkSostenuto && decide ((c.regions l).sostenutoThreshold ≤ c.defaultCC (c.regions l).sostenutoCC),
        (s.layers l).delayedSustain,
        caughtAfter (c.regions l) s.midi (c.defaultCC (c.regions l).sostenutoCC) (s.layers l).sostenutoPressed (s.layers l).delayedSostenuto) := by
  have hin : (c.regions l).sustainCC ∈ List.range Layer.numCCs := List.mem_range.mpr hr.sustain
  have hin2 : (c.regions l).sostenutoCC ∈ List.range Layer.numCCs := List.mem_range.mpr hr.sostenuto
  unfold resetAllControllers
  simp only [eachLayer, hl, if_true, resetLayerCCs]
  generalize List.range Layer.numCCs = R at hin hin2 ⊢
  have hM : ∀ v p L, caughtAfter (c.regions l) (R.foldl (fun m cc => Midi.ccEvent m d cc (c.defaultCC cc)) (Midi.pitchBend s.midi d 0)) v p L =
      caughtAfter (c.regions l) s.midi v p L := by
    intro v p L
    unfold caughtAfter
    rw [heldKeys_congr (c.regions l) (m := s.midi) (resetAll_midi d R (Midi.pitchBend s.midi d 0)).1 (resetAll_midi d R (Midi.pitchBend s.midi d 0)).2]
  refine (loadPed_fold hr _ c.defaultCC _ (s.layers l) hc).trans ?_
  rw [if_pos hin, if_pos hin2, if_pos hin2]
  rw [← hM]
  rfl

theorem Agree.step (hn : NoOffBy c) {l : Nat} (hl : l < c.numLayers) (hr : IsRelease (c.regions l)) {s s' : E} {x : Memory} {op : Op}
    (h : Agree (c := c) l s x) (hs : Engine.step c s op = some s') :
    Agree (c := c) l s' (listen c l x op) := by
  cases op with
  | noteOn d n v => exact h.keep hs (noteOn_ped hn l hs) rfl rfl (by intros; simp) rfl
  | noteOff d n v => exact h.noteOff hn hl hr hs
  | cc d k v =>
    by_cases h121 : k = 121
    · subst h121
      have : s' = resetAllControllers c s d := by
        have : performHdcc c s d 121 v true (-1) = some s' := hs
        unfold performHdcc at this
        rw [if_pos ⟨rfl, rfl⟩] at this
        cases this; rfl
      have key := reset_ped (c := c) s d hl hr (h.tidy rfl).calm
      have hp := h.ped_eq
      simp only [ped, Prod.mk.injEq] at hp
      rw [hp.2.2.1, hp.2.1, hp.2.2.2, ← h.state] at key
      refine h.of_notes hs (x.reset (c.regions l) (c.defaultCC (c.regions l).sustainCC) (c.defaultCC (c.regions l).sostenutoCC)) rfl
        ?_ ?_ ?_ ?_ ?_
      · rw [this, ← h.state]; exact key
      · intro hx
        simp only [Memory.reset] at hx ⊢
        rw [hx]; rfl
      · intro hx; simp [Memory.reset, hx]
      · intro hx; simp [Memory.reset, hx, (h.offSustain hx).1]
      · exact h.room
    · refine h.hdcc hn hl hr hs rfl rfl rfl hs ?_ (fun e => h121 e.2) (by intros; simp) (by simp [isReset, h121])
      intro j
      simp [sentCC, isCommand, h121]
  | automate d k v =>
    refine h.hdcc hn hl hr hs rfl rfl rfl hs ?_ (by simp) (by intros; simp) rfl
    intro j
    simp [sentCC, isCommand]
  | pitchWheel d v =>
    refine h.hdcc hn hl hr hs (s1 := eachLayer c (fun l ls => Layer.registerPitchWheel (c.regions l) ls v)
      { s with midi := Midi.pitchBend s.midi d v }) (d := d) (k := 128) (v := v) (b := false) (arg := -1) ?_ rfl rfl hs ?_ (by simp) (by intros; simp) rfl
    · simp only [eachLayer, hl, if_true]; rfl
    · intro j; simp [sentCC, isCommand, eq_comm]
  | program p =>
    cases hs
    refine h.keep rfl ?_ rfl rfl (by intros; simp) rfl
    simp only [programChange, eachLayer, hl, if_true]; rfl
  | channelAftertouch d v =>
    refine h.hdcc hn hl hr hs (s1 := eachLayer c (fun l ls => Layer.registerAftertouch (c.regions l) ls v)
      { s with midi := Midi.chanAftertouch s.midi d v }) (d := d) (k := 129) (v := v) (b := false) (arg := -1) ?_ rfl rfl hs ?_ (by simp) (by intros; simp) rfl
    · simp only [eachLayer, hl, if_true]; rfl
    · intro j; simp [sentCC, isCommand, eq_comm]
  | polyAftertouch d n v =>
    have hv : (Midi.polyAftertouch s.midi d n v).noteStates = s.midi.noteStates ∧
        (Midi.polyAftertouch s.midi d n v).lastNoteVelocities = s.midi.lastNoteVelocities := by
      unfold Midi.polyAftertouch; split <;> exact ⟨rfl, rfl⟩
    refine h.hdcc hn hl hr hs (s1 := { s with midi := Midi.polyAftertouch s.midi d n v }) (d := d) (k := 130) (v := v) (b := false)
      (arg := n) rfl hv.1 hv.2 hs ?_ (by simp) (by intros; simp) rfl
    intro j; simp [sentCC, isCommand, eq_comm]
  | render f snd =>
    refine h.keep hs ?_ rfl rfl (by intros; simp) rfl
    simp only [Engine.step, render] at hs
    split at hs
    · cases hs; rfl
    · simp only [Option.bind_eq_bind, Option.bind_eq_some_iff, Option.pure_def, Option.some.injEq] at hs
      obtain ⟨s1, h1, rfl⟩ := hs
      rw [show s1.layers = s.layers from (eachVoiceM_frame h1).2.2.1]
  | allSoundOff =>
    refine h.keep hs ?_ rfl rfl (by intros; simp) rfl
    rw [show s'.layers = s.layers from (eachVoiceM_frame hs).2.2.1]
  | setNumVoices n =>
    cases hs
    refine h.keep rfl ?_ rfl rfl (by intros; simp) rfl
    simp only [setNumVoices]
    split <;> rfl

/-- The listener when the instrument has been loaded: the pedals where the controllers are, the keys held caught if the sostenuto pedal is
down. -/
def listenInit (c : Cfg) (m : Midi.State) (sw : Option Int) (n : Nat) (gl sl : Nat → Nat) (l : Nat) : Memory where
  state := load c m sw n gl sl
  down := (c.regions l).checkSustain && decide ((c.regions l).sustainThreshold ≤ Layer.ccValue m (c.regions l).sustainCC)
  sostenuto := (c.regions l).checkSostenuto && decide ((c.regions l).sostenutoThreshold ≤ Layer.ccValue m (c.regions l).sostenutoCC)
  caught := if (c.regions l).checkSostenuto && decide ((c.regions l).sostenutoThreshold ≤ Layer.ccValue m (c.regions l).sostenutoCC) then
    heldKeys (c.regions l) m else []

theorem load_agree {l : Nat} (hr : IsRelease (c.regions l)) (m : Midi.State) (sw : Option Int) (n : Nat) (gl sl : Nat → Nat) :
    Agree (c := c) l (load c m sw n gl sl) (listenInit c m sw n gl sl l) := by
  refine ⟨rfl, ?_, ?_, ?_, ?_, by simp [listenInit]⟩
  · show ped (loadLayer c m sw l) = _
    unfold loadLayer
    dsimp only
    have tail : ∀ ls : Layer.State, ∀ a b e : ℚ, ∀ p, ped (Layer.registerProgramChange (c.regions l) (Layer.registerTempo (c.regions l)
        (Layer.registerAftertouch (c.regions l) (Layer.registerPitchWheel (c.regions l) ls a) b) e) p) = ped ls := by
      intros; rfl
    rw [tail]
    have hin : (c.regions l).sustainCC ∈ List.range Layer.numCCs := List.mem_range.mpr hr.sustain
    have hin2 : (c.regions l).sostenutoCC ∈ List.range Layer.numCCs := List.mem_range.mpr hr.sostenuto
    have start : ∀ ls : Layer.State, ped ls = (false, false, [], []) →
        ped ((List.range Layer.numCCs).foldl (fun ls cc => Layer.updateCCState (c.regions l) m ls cc (Layer.ccValue m cc)) ls) =
        (listenInit c m sw n gl sl l).notes := by
      intro ls h
      simp only [ped, Prod.mk.injEq] at h
      rw [loadPed_fold hr m (Layer.ccValue m) _ _ (fun _ => h.2.2.2), if_pos hin, if_pos hin2, if_pos hin2, h.2.1, h.2.2.1, h.2.2.2]
      rfl
    apply start
    split <;> split <;> rfl
  · intro hx
    simp only [listenInit] at hx ⊢
    rw [hx]; rfl
  · intro hx; simp [listenInit, hx]
  · intro hx; simp [listenInit, hx]

theorem agree_after (hn : NoOffBy c) (m : Midi.State) (sw : Option Int) (n : Nat) (gl sl : Nat → Nat) {l : Nat}
    (hl : l < c.numLayers) (hr : IsRelease (c.regions l)) (ops : List Op) (s : E) (h : run c (load c m sw n gl sl) ops = some s) :
    Agree (c := c) l s (ops.foldl (listen c l) (listenInit c m sw n gl sl l)) := by
  refine history_induction (P := fun ops s => Agree (c := c) l s (ops.foldl (listen c l) (listenInit c m sw n gl sl l))) ?_ ?_ ops s h
  · exact load_agree hr m sw n gl sl
  · intro ops s op s' _ ih hs
    rw [List.foldl_append]
    exact ih.step hn hl hr hs

/-! ### The releases that wait -/

/-- C16: after any history, for each region that plays on release, the note-offs that wait for the sustain pedal are exactly those heard
since that pedal is down, of keys the sostenuto pedal has not caught, and the keys handed over by the sostenuto pedal, with the velocity
the key was pressed with, in order (as long as there is room); the sostenuto pedal has caught exactly the keys held when it went down. -/
theorem releases_wait_partial (hn : NoOffBy c) (m : Midi.State) (sw : Option Int) (n : Nat) (gl sl : Nat → Nat) {l : Nat}
    (hl : l < c.numLayers) (hr : IsRelease (c.regions l)) (ops : List Op) (s : E) (h : run c (load c m sw n gl sl) ops = some s) :
    (s.layers l).delayedSustain = (ops.foldl (listen c l) (listenInit c m sw n gl sl l)).waiting ∧
    (s.layers l).sustainPressed = (ops.foldl (listen c l) (listenInit c m sw n gl sl l)).down ∧
    (s.layers l).delayedSostenuto = (ops.foldl (listen c l) (listenInit c m sw n gl sl l)).caught ∧
    (s.layers l).sostenutoPressed = (ops.foldl (listen c l) (listenInit c m sw n gl sl l)).sostenuto := by
  have a := (agree_after hn m sw n gl sl hl hr ops s h).ped_eq
  simp only [ped, Prod.mk.injEq] at a
  exact ⟨a.2.2.1, a.1, a.2.2.2, a.2.1⟩

end Verif.Engine
