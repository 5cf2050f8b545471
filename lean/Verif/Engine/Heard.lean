import Verif.Engine.Pedals
import Verif.Midi.Notes

/-! C12: the conditions of regions on notes held, on the velocity of the note before and on the pressure on the key, from the calls
alone. -/
namespace Verif.Engine

open Verif.Layer (Region)
open Verif.Range (containsWithEnd)

variable (c : Cfg)

/-! ### Specification -/

/-- The key is one of the 128 keys and not a key-switch (`sw_last`) of the instrument. -/
def playable (n : Int) : Bool :=
  decide (0 ≤ n) && decide (n < 128) && !(List.range c.numLayers).any (fun l => isLastSwitch (c.regions l) n)

/-- What a call says about key `k`: pressed, released, or nothing. -/
def keySays (k : Nat) : Op → Option Bool
  | .noteOn _ n _ => if n = k ∧ playable c n = true then some true else none
  | .noteOff _ n _ => if n = k ∧ playable c n = true then some false else none
  | .cc _ k' _ => if k' = 120 ∨ k' = 123 then some false else none
  | _ => none

/-- Key `k` is down: the last call about it was a note-on. -/
def isDown (m : Midi.State) (ops : List Op) (k : Nat) : Bool := latest (keySays c k) (m.noteStates k) ops

/-- How many keys are down. -/
def downCount (m : Midi.State) (ops : List Op) : Nat := ((List.range 128).filter (isDown c m ops)).length

/-- No key is pressed while it is down, or released while it is up. -/
def Proper (m : Midi.State) (ops : List Op) : Prop :=
  ∀ pre op post, ops = pre ++ op :: post →
    match op with
    | .noteOn _ n _ => playable c n = true → isDown c m pre n.toNat = false
    | .noteOff _ n _ => playable c n = true → isDown c m pre n.toNat = true
    | _ => True

/-- The velocity with which a call presses a key. -/
def struck : Op → Option ℚ
  | .noteOn _ n v => if playable c n = true then some v else none
  | _ => none

/-- The velocity with which a call presses key `k`. -/
def struckKey (k : Nat) : Op → Option ℚ
  | .noteOn _ n v => if n = k ∧ playable c n = true then some v else none
  | _ => none

/-- The pressure a call puts on key `k`. -/
def pressed (k : Int) : Op → Option ℚ
  | .polyAftertouch _ n v => if n = k then some v else none
  | _ => none

/-- All the conditions of region `r` on a note-on of `note` with velocity `v` and random number `u`, after the calls `ops` to a
fresh synthesizer with default key-switch `sw`. -/
def Wanted (sw : Option Int) (ops : List Op) (r : Region) (d note : Int) (v u : ℚ) : Prop :=
  r.triggerOnNote = true ∧
  containsWithEnd r.keyRange note = true ∧
  containsWithEnd r.velocityRange (if r.velocityPrevious then latest (struck c) 0 ops else v) = true ∧
  randHolds r u ∧
  (r.trigger = .attack ∨ r.trigger = .first ∧ downCount c Midi.init ops = 0 ∨ r.trigger = .legato ∧ downCount c Midi.init ops > 0) ∧
  containsWithEnd r.polyAftertouchRange (latest (pressed note) 0 ops) = true ∧
  switchHolds r (lastSwitch c sw (ops ++ [.noteOn d note v])) = true ∧
  previousHolds r ((ops.filterMap pressedKey).getLast?) = true ∧
  matching r ops % r.sequenceLength + 1 = r.sequencePosition ∧
  containsWithEnd r.bendRange (latest sentBend 0 ops) = true ∧
  containsWithEnd r.programRange (latest sentProgram 0 ops) = true ∧
  containsWithEnd r.aftertouchRange (latest sentAftertouch 0 ops) = true ∧
  ∀ k, k < 512 → ∀ range, r.ccConditions k = some range → containsWithEnd range (latest (sentCC c k) 0 ops) = true

/-! ### Lemmas -/

variable {c}

theorem playable_iff (n : Int) : playable c n = true ↔ Midi.IsKey n ∧ (lastLayers c n).isEmpty = true := by
  unfold playable Midi.IsKey
  rw [lastLayers_empty]
  simp only [Bool.and_eq_true, decide_eq_true_eq, and_assoc]

/-- The part of the MIDI state that notes are remembered in. -/
def notesOf (m : Midi.State) : (Nat → Bool) × (Nat → ℚ) × ℚ × Option Nat × Nat :=
  (m.noteStates, m.lastNoteVelocities, m.velocityOverride, m.lastNotePlayed, m.activeNotes)

theorem ccEvents_notes (f : Nat → ℚ) (d : Int) (L : List Nat) : ∀ m : Midi.State,
    notesOf (L.foldl (fun m cc => Midi.ccEvent m d cc (f cc)) m) = notesOf m ∧
    (L.foldl (fun m cc => Midi.ccEvent m d cc (f cc)) m).polyAftertouch = m.polyAftertouch := by
  induction L with
  | nil => intro m; exact ⟨rfl, rfl⟩
  | cons a tl ih => intro m; rw [List.foldl_cons]; exact ih _

theorem noteOn_poly (m : Midi.State) (d n : Int) (v u b : ℚ) : (Midi.noteOn m d n v u b).polyAftertouch = m.polyAftertouch := by
  unfold Midi.noteOn; split <;> rfl

theorem noteOff_poly (m : Midi.State) (d n : Int) (v u b : ℚ) : (Midi.noteOff m d n v u b).polyAftertouch = m.polyAftertouch := by
  unfold Midi.noteOff; split <;> rfl

theorem notesOffLoop_rest (m : Midi.State) (d : Int) (rnd : Nat → ℚ × ℚ) (k : Nat) :
    (Midi.allNotesOffLoop m d rnd k).polyAftertouch = m.polyAftertouch ∧
    (Midi.allNotesOffLoop m d rnd k).lastNoteVelocities = m.lastNoteVelocities ∧
    (Midi.allNotesOffLoop m d rnd k).velocityOverride = m.velocityOverride ∧
    (Midi.allNotesOffLoop m d rnd k).lastNotePlayed = m.lastNotePlayed := by
  induction k with
  | zero => exact ⟨rfl, rfl, rfl, rfl⟩
  | succ k ih =>
    rw [Midi.allNotesOffLoop]
    obtain ⟨h1, h2, h3, h4⟩ := ih
    unfold Midi.noteOff
    split <;> exact ⟨h1, h2, h3, h4⟩

/-- What a call does to the notes and pressures of the MIDI state. -/
def Effect (c : Cfg) (m m' : Midi.State) : Op → Prop
  | .noteOn d n v => (playable c n = true → ∃ u b, m' = Midi.noteOn m d n v u b) ∧
      (playable c n = false → notesOf m' = notesOf m ∧ m'.polyAftertouch = m.polyAftertouch)
  | .noteOff d n v => (playable c n = true → ∃ u b, m' = Midi.noteOff m d n v u b) ∧
      (playable c n = false → notesOf m' = notesOf m ∧ m'.polyAftertouch = m.polyAftertouch)
  | .cc d k _ => if k = 120 ∨ k = 123 then ∃ rnd, m' = Midi.allNotesOff m d rnd
      else notesOf m' = notesOf m ∧ m'.polyAftertouch = m.polyAftertouch
  | .polyAftertouch d n v => notesOf m' = notesOf m ∧ m'.polyAftertouch = (Midi.polyAftertouch m d n v).polyAftertouch
  | .render f _ => notesOf m' = notesOf m ∧
      m'.polyAftertouch = if f < 1 then m.polyAftertouch else fun i => Midi.flushVector (m.polyAftertouch i)
  | _ => notesOf m' = notesOf m ∧ m'.polyAftertouch = m.polyAftertouch

theorem step_effect {s s' : E} {op : Op} (hs : step c s op = some s') : Effect c s.midi s'.midi op := by
  have hplay : ∀ n : Int, playable c n = false → (lastLayers c n).isEmpty = true → ¬ Midi.IsKey n := by
    intro n h1 h2 h3
    rw [(playable_iff n).mpr ⟨h3, h2⟩] at h1; cases h1
  cases op with
  | noteOn d n v =>
    have hs : hdNoteOn c s d n v = some s' := hs
    unfold hdNoteOn at hs
    obtain ⟨h1, _⟩ := noteOnDispatch_core hs
    rw [h1]
    refine ⟨fun h => ?_, fun h => ?_⟩
    · rw [if_pos ((playable_iff n).mp h).2]; exact ⟨_, _, rfl⟩
    · split
      · rename_i h2
        show notesOf (Midi.noteOn s.midi d n v _ _) = _ ∧ (Midi.noteOn s.midi d n v _ _).polyAftertouch = _
        unfold Midi.noteOn
        rw [if_neg (hplay n h h2)]
        exact ⟨rfl, rfl⟩
      · exact ⟨rfl, rfl⟩
  | noteOff d n v =>
    have hs : hdNoteOff c s d n v = some s' := hs
    unfold hdNoteOff at hs
    obtain ⟨h1, _⟩ := (noteOffDispatch_atoms _ _ _ _ _ _ hs).frame
    rw [h1]
    simp only [eachVoice]
    refine ⟨fun h => ?_, fun h => ?_⟩
    · rw [if_pos ((playable_iff n).mp h).2]; exact ⟨_, _, rfl⟩
    · split
      · rename_i h2
        show notesOf (Midi.noteOff s.midi d n v _ _) = _ ∧ (Midi.noteOff s.midi d n v _ _).polyAftertouch = _
        unfold Midi.noteOff
        rw [if_neg (hplay n h h2)]
        exact ⟨rfl, rfl⟩
      · exact ⟨rfl, rfl⟩
  | cc d j v =>
    have hs : performHdcc c s d j v true (-1) = some s' := hs
    simp only [Effect]
    split
    · rename_i hj
      obtain ⟨h1, _⟩ := performHdcc_off hj hs
      exact ⟨_, h1⟩
    · rename_i hj
      by_cases h121 : j = 121
      · subst h121
        have hs' : s' = resetAllControllers c s d := by
          simp only [performHdcc, true_and, if_true] at hs
          cases hs; rfl
        rw [hs', reset_midi]
        generalize List.range Layer.numCCs = L
        exact ccEvents_notes _ _ L _
      · obtain ⟨h1, _⟩ := performHdcc_core (by simp only [isCommand, Bool.true_and, Bool.or_eq_false_iff, decide_eq_false_iff_not]; omega) hs
        rw [h1]; exact ⟨rfl, rfl⟩
  | automate d j v =>
    have hs : performHdcc c s d j v false (-1) = some s' := hs
    obtain ⟨h1, _⟩ := performHdcc_core (by simp [isCommand]) hs
    rw [h1]; exact ⟨rfl, rfl⟩
  | pitchWheel d v =>
    have hs : hdPitchWheel c s d v = some s' := hs
    unfold hdPitchWheel at hs
    obtain ⟨h1, _⟩ := performHdcc_core (by simp [isCommand]) hs
    rw [h1]; exact ⟨rfl, rfl⟩
  | program p => cases hs; exact ⟨rfl, rfl⟩
  | channelAftertouch d v =>
    have hs : hdChannelAftertouch c s d v = some s' := hs
    unfold hdChannelAftertouch at hs
    obtain ⟨h1, _⟩ := performHdcc_core (by simp [isCommand]) hs
    rw [h1]; exact ⟨rfl, rfl⟩
  | polyAftertouch d n v =>
    have hs : hdPolyAftertouch c s d n v = some s' := hs
    unfold hdPolyAftertouch at hs
    obtain ⟨h1, _⟩ := performHdcc_core (by simp [isCommand]) hs
    rw [h1]
    refine ⟨?_, rfl⟩
    show notesOf (Midi.polyAftertouch s.midi d n v) = _
    unfold Midi.polyAftertouch; split <;> rfl
  | render f snd =>
    have hs : render c s f snd = some s' := hs
    unfold render at hs
    by_cases hf : f < 1
    · rw [if_pos hf] at hs
      cases hs
      exact ⟨rfl, by rw [if_pos hf]⟩
    · rw [if_neg hf] at hs
      simp only [Option.bind_eq_bind, Option.bind_eq_some_iff] at hs
      obtain ⟨s1, h1, h2⟩ := hs
      cases h2
      have hm := (eachVoiceM_frame h1).1
      show notesOf (Midi.advanceTime s1.midi f) = _ ∧ (Midi.advanceTime s1.midi f).polyAftertouch = _
      rw [hm, if_neg hf]
      exact ⟨rfl, rfl⟩
  | allSoundOff => rw [(eachVoiceM_frame hs).1]; exact ⟨rfl, rfl⟩
  | setNumVoices n =>
    cases hs
    unfold setNumVoices
    split <;> exact ⟨rfl, rfl⟩

theorem allNotesOff_down (m : Midi.State) (d : Int) (rnd : Nat → ℚ × ℚ) :
    (∀ j, j < 128 → (Midi.allNotesOff m d rnd).noteStates j = false) ∧ (Midi.allNotesOff m d rnd).activeNotes = m.activeNotes - 128 := by
  obtain ⟨h1, h2⟩ := Midi.allNotesOffLoop_notes m d rnd 128 (le_refl _)
  exact ⟨fun j hj => by unfold Midi.allNotesOff; rw [h1 j, if_pos hj], h2⟩

/-- A key is down for the synthesizer if the last call about it was a note-on. -/
theorem down_after {s0 : E} : ∀ ops s, run c s0 ops = some s → ∀ k, k < 128 → s.midi.noteStates k = isDown c s0.midi ops k := by
  refine history_induction (P := fun ops s => ∀ k, k < 128 → s.midi.noteStates k = isDown c s0.midi ops k) (fun k _ => rfl) ?_
  intro ops s op s' _ ih hs k hk
  unfold isDown
  rw [latest_snoc]
  change _ = (keySays c k op).getD (isDown c s0.midi ops k)
  rw [← ih k hk]
  have he := step_effect hs
  have same : notesOf s'.midi = notesOf s.midi → s'.midi.noteStates k = s.midi.noteStates k :=
    fun h => congrFun (congrArg Prod.fst h) k
  have hcast : ∀ n : Int, Midi.IsKey n → (k = n.toNat ↔ n = k) := by
    intro n hn
    have := hn.1
    omega
  cases op with
  | noteOn d n v =>
    unfold keySays
    cases hp : playable c n with
    | false => simp only [hp, Bool.false_eq_true, and_false, if_false, Option.getD_none]; exact same (he.2 hp).1
    | true =>
      obtain ⟨u, b, e⟩ := he.1 hp
      have hk' := ((playable_iff n).mp hp).1
      rw [e, (Midi.noteOn_states hk').1]
      by_cases hn : n = k
      · simp [hn, hn ▸ hp, Midi.upd]
      · simp only [hn, false_and, if_false, Option.getD_none, Midi.upd]
        rw [if_neg (fun e => hn ((hcast n hk').mp e))]
  | noteOff d n v =>
    unfold keySays
    cases hp : playable c n with
    | false => simp only [hp, Bool.false_eq_true, and_false, if_false, Option.getD_none]; exact same (he.2 hp).1
    | true =>
      obtain ⟨u, b, e⟩ := he.1 hp
      have hk' := ((playable_iff n).mp hp).1
      rw [e, (Midi.noteOff_states hk').1]
      by_cases hn : n = k
      · simp [hn, hn ▸ hp, Midi.upd]
      · simp only [hn, false_and, if_false, Option.getD_none, Midi.upd]
        rw [if_neg (fun e => hn ((hcast n hk').mp e))]
  | cc d j v =>
    simp only [Effect] at he
    unfold keySays
    by_cases hj : j = 120 ∨ j = 123
    · simp only [if_pos hj, Option.getD_some] at he ⊢
      obtain ⟨rnd, e⟩ := he
      rw [e]; exact (allNotesOff_down _ _ _).1 k hk
    · simp only [if_neg hj, Option.getD_none] at he ⊢
      exact same he.1
  | automate _ _ _ => exact same he.1
  | pitchWheel _ _ => exact same he.1
  | program _ => exact same he.1
  | channelAftertouch _ _ => exact same he.1
  | polyAftertouch _ _ _ => exact same he.1
  | render _ _ => exact same he.1
  | allSoundOff => exact same he.1
  | setNumVoices _ => exact same he.1

theorem Proper.prefix {m : Midi.State} {ops : List Op} {op : Op} (h : Proper c m (ops ++ [op])) : Proper c m ops := by
  intro pre o post e
  exact h pre o (post ++ [op]) (by rw [e]; simp)

/-- The number of notes that count for `first` and `legato` is the number of keys down. -/
theorem active_after {s0 : E} (h0 : s0.midi.activeNotes = downCount c s0.midi []) :
    ∀ ops s, run c s0 ops = some s → Proper c s0.midi ops → s.midi.activeNotes = downCount c s0.midi ops := by
  refine history_induction (P := fun ops s => Proper c s0.midi ops → s.midi.activeNotes = downCount c s0.midi ops) (fun _ => h0) ?_
  intro ops s op s' hr ih hs hp
  have hi := ih hp.prefix
  have hop := hp ops op [] rfl
  have he := step_effect hs
  have hd := fun k => latest_snoc (keySays c k) (s0.midi.noteStates k) ops op
  have keep : notesOf s'.midi = notesOf s.midi → (∀ k < 128, keySays c k op = none) → s'.midi.activeNotes = downCount c s0.midi (ops ++ [op]) := by
    intro h1 h2
    have : s'.midi.activeNotes = s.midi.activeNotes := congrArg (fun x => x.2.2.2.2) h1
    rw [this, hi]
    unfold downCount
    congr 1
    apply List.filter_congr
    intro k hk
    unfold isDown
    rw [hd k, h2 k (List.mem_range.mp hk)]; rfl
  have hnd : (List.range 128).Nodup := List.nodup_range
  cases op with
  | noteOn d n v =>
    cases hpl : playable c n with
    | false => exact keep (he.2 hpl).1 (fun k _ => by simp [keySays, hpl])
    | true =>
      obtain ⟨u, b, e⟩ := he.1 hpl
      have hk' := ((playable_iff n).mp hpl).1
      have hk0 := hk'.1
      have hk1 := hk'.2
      rw [e, (Midi.noteOn_states hk').2, hi]
      unfold downCount
      refine (Midi.count_upd hnd (n := n.toNat) (by simp; omega) (hop hpl) ?_ ?_).symm
      · unfold isDown
        rw [hd, keySays, if_pos ⟨by omega, hpl⟩]; rfl
      · intro j hj
        unfold isDown
        rw [hd j, keySays, if_neg (by rintro ⟨e, _⟩; omega)]; rfl
  | noteOff d n v =>
    cases hpl : playable c n with
    | false => exact keep (he.2 hpl).1 (fun k _ => by simp [keySays, hpl])
    | true =>
      obtain ⟨u, b, e⟩ := he.1 hpl
      have hk' := ((playable_iff n).mp hpl).1
      have hk0 := hk'.1
      have hk1 := hk'.2
      rw [e, (Midi.noteOff_states hk').2, hi]
      unfold downCount
      have := Midi.count_upd hnd (n := n.toNat) (f := isDown c s0.midi (ops ++ [.noteOff d n v])) (g := isDown c s0.midi ops)
        (by simp; omega) ?_ (hop hpl) ?_
      · omega
      · unfold isDown
        rw [hd, keySays, if_pos ⟨by omega, hpl⟩]; rfl
      · intro j hj
        unfold isDown
        rw [hd j, keySays, if_neg (by rintro ⟨e, _⟩; omega)]; rfl
  | cc d j v =>
    simp only [Effect] at he
    by_cases hj : j = 120 ∨ j = 123
    · simp only [if_pos hj] at he
      obtain ⟨rnd, e⟩ := he
      rw [e, (allNotesOff_down _ _ _).2, hi]
      have h1 : downCount c s0.midi ops ≤ 128 := (List.length_filter_le _ _).trans (by simp)
      have h2 : downCount c s0.midi (ops ++ [.cc d j v]) = 0 := by
        unfold downCount
        rw [List.length_eq_zero_iff, List.filter_eq_nil_iff]
        intro k _
        unfold isDown
        rw [hd k, keySays, if_pos hj]; simp
      omega
    · simp only [if_neg hj] at he
      exact keep he.1 (fun k _ => by rw [keySays, if_neg hj])
  | automate _ _ _ => exact keep he.1 (fun _ _ => rfl)
  | pitchWheel _ _ => exact keep he.1 (fun _ _ => rfl)
  | program _ => exact keep he.1 (fun _ _ => rfl)
  | channelAftertouch _ _ => exact keep he.1 (fun _ _ => rfl)
  | polyAftertouch _ _ _ => exact keep he.1 (fun _ _ => rfl)
  | render _ _ => exact keep he.1 (fun _ _ => rfl)
  | allSoundOff => exact keep he.1 (fun _ _ => rfl)
  | setNumVoices _ => exact keep he.1 (fun _ _ => rfl)

/-- The velocity of the note before, as the next note will find it. -/
def lastVelocity (m : Midi.State) : ℚ :=
  match m.lastNotePlayed with
  | some l => m.lastNoteVelocities l
  | none => m.velocityOverride

theorem noteOn_velocities {m : Midi.State} {d n : Int} {v u b : ℚ} (hk : Midi.IsKey n) :
    (Midi.noteOn m d n v u b).velocityOverride = lastVelocity m ∧
    (Midi.noteOn m d n v u b).lastNoteVelocities = Midi.upd m.lastNoteVelocities n.toNat v ∧
    (Midi.noteOn m d n v u b).lastNotePlayed = some n.toNat := by
  unfold Midi.noteOn; rw [if_pos hk]; exact ⟨rfl, rfl, rfl⟩

theorem noteOff_velocities {m : Midi.State} {d n : Int} {v u b : ℚ} :
    (Midi.noteOff m d n v u b).velocityOverride = m.velocityOverride ∧
    (Midi.noteOff m d n v u b).lastNoteVelocities = m.lastNoteVelocities ∧
    (Midi.noteOff m d n v u b).lastNotePlayed = m.lastNotePlayed := by
  unfold Midi.noteOff; split <;> exact ⟨rfl, rfl, rfl⟩

/-- The velocities remembered are those of the last note-on and of the last note-on of each key. -/
theorem velocities_after {s0 : E} : ∀ ops s, run c s0 ops = some s →
    lastVelocity s.midi = latest (struck c) (lastVelocity s0.midi) ops ∧
    ∀ k : Nat, s.midi.lastNoteVelocities k = latest (struckKey c k) (s0.midi.lastNoteVelocities k) ops := by
  refine history_induction (P := fun ops s => lastVelocity s.midi = latest (struck c) (lastVelocity s0.midi) ops ∧
    ∀ k : Nat, s.midi.lastNoteVelocities k = latest (struckKey c k) (s0.midi.lastNoteVelocities k) ops) ⟨rfl, fun _ => rfl⟩ ?_
  intro ops s op s' _ ⟨ih, ih'⟩ hs
  have he := step_effect hs
  rw [latest_snoc, ← ih]
  have same : s'.midi.velocityOverride = s.midi.velocityOverride → s'.midi.lastNoteVelocities = s.midi.lastNoteVelocities →
      s'.midi.lastNotePlayed = s.midi.lastNotePlayed → struck c op = none → (∀ k, struckKey c k op = none) →
      lastVelocity s'.midi = (struck c op).getD (lastVelocity s.midi) ∧
      ∀ k : Nat, s'.midi.lastNoteVelocities k = latest (struckKey c k) (s0.midi.lastNoteVelocities k) (ops ++ [op]) := by
    intro h1 h2 h3 h4 h5
    refine ⟨?_, fun k => ?_⟩
    · rw [h4]
      unfold lastVelocity
      rw [h1, h2, h3]; rfl
    · rw [latest_snoc, h5 k, h2, ih' k]; rfl
  have same' : notesOf s'.midi = notesOf s.midi → struck c op = none → (∀ k, struckKey c k op = none) →
      lastVelocity s'.midi = (struck c op).getD (lastVelocity s.midi) ∧
      ∀ k : Nat, s'.midi.lastNoteVelocities k = latest (struckKey c k) (s0.midi.lastNoteVelocities k) (ops ++ [op]) :=
    fun h => same (congrArg (fun x => x.2.2.1) h) (congrArg (fun x => x.2.1) h) (congrArg (fun x => x.2.2.2.1) h)
  cases op with
  | noteOn d n v =>
    cases hpl : playable c n with
    | false => exact same' (he.2 hpl).1 (by simp [struck, hpl]) (by simp [struckKey, hpl])
    | true =>
      obtain ⟨u, b, e⟩ := he.1 hpl
      have hk' := ((playable_iff n).mp hpl).1
      have hk0 := hk'.1
      obtain ⟨_, h2, h3⟩ := noteOn_velocities (m := s.midi) (d := d) (v := v) (u := u) (b := b) hk'
      rw [e]
      refine ⟨?_, fun k => ?_⟩
      · simp only [lastVelocity, h3, h2, Midi.upd, if_true, struck, hpl, Option.getD_some]
      · rw [h2, latest_snoc, ← ih' k]
        simp only [struckKey, Midi.upd]
        by_cases hn : n = k
        · simp [hn, hn ▸ hpl]
        · rw [if_neg (by omega), if_neg (fun e => hn e.1)]; rfl
  | noteOff d n v =>
    cases hpl : playable c n with
    | false => exact same' (he.2 hpl).1 rfl (fun _ => rfl)
    | true =>
      obtain ⟨u, b, e⟩ := he.1 hpl
      obtain ⟨h1, h2, h3⟩ := noteOff_velocities (m := s.midi) (d := d) (n := n) (v := v) (u := u) (b := b)
      exact same (e ▸ h1) (e ▸ h2) (e ▸ h3) rfl (fun _ => rfl)
  | cc d j v =>
    simp only [Effect] at he
    by_cases hj : j = 120 ∨ j = 123
    · simp only [if_pos hj] at he
      obtain ⟨rnd, e⟩ := he
      obtain ⟨_, h2, h1, h3⟩ := notesOffLoop_rest s.midi d rnd 128
      exact same (e ▸ h1) (e ▸ h2) (e ▸ h3) rfl (fun _ => rfl)
    · simp only [if_neg hj] at he
      exact same' he.1 rfl (fun _ => rfl)
  | automate _ _ _ => exact same' he.1 rfl (fun _ => rfl)
  | pitchWheel _ _ => exact same' he.1 rfl (fun _ => rfl)
  | program _ => exact same' he.1 rfl (fun _ => rfl)
  | channelAftertouch _ _ => exact same' he.1 rfl (fun _ => rfl)
  | polyAftertouch _ _ _ => exact same' he.1 rfl (fun _ => rfl)
  | render _ _ => exact same' he.1 rfl (fun _ => rfl)
  | allSoundOff => exact same' he.1 rfl (fun _ => rfl)
  | setNumVoices _ => exact same' he.1 rfl (fun _ => rfl)

/-- The events of a key hold the pressure `x`, at time `t` of the block. -/
structure Presses (l : Midi.EventVector) (t : Int) (x : ℚ) : Prop where
  good : Midi.Good l
  time : ∀ e ∈ l, e.delay ≤ t
  value : Midi.backValue l = some x

theorem Presses.later {l : Midi.EventVector} {t t' : Int} {x : ℚ} (h : Presses l t x) (ht : t ≤ t') : Presses l t' x :=
  ⟨h.good, fun e he => (h.time e he).trans ht, h.value⟩

theorem step_presses {s s' : E} {op : Op} {t : Int} {k : Nat} {x : ℚ} (hk : k < 128) (h : Presses (s.midi.polyAftertouch k) t x)
    (ht : ∀ d, delayOf op = some d → t ≤ d) (hs : step c s op = some s') :
    Presses (s'.midi.polyAftertouch k) (timeAfter t op) ((pressed k op).getD x) := by
  have he := step_effect hs
  have same : s'.midi.polyAftertouch = s.midi.polyAftertouch → pressed k op = none → t ≤ timeAfter t op →
      Presses (s'.midi.polyAftertouch k) (timeAfter t op) ((pressed k op).getD x) := by
    intro h1 h2 h3
    rw [h1, h2]; exact h.later h3
  cases op with
  | noteOn d n v =>
    refine same ?_ rfl (ht d rfl)
    cases hpl : playable c n with
    | false => exact (he.2 hpl).2
    | true =>
      obtain ⟨u, b, e⟩ := he.1 hpl
      rw [e]; exact noteOn_poly ..
  | noteOff d n v =>
    refine same ?_ rfl (ht d rfl)
    cases hpl : playable c n with
    | false => exact (he.2 hpl).2
    | true =>
      obtain ⟨u, b, e⟩ := he.1 hpl
      rw [e]; exact noteOff_poly ..
  | cc d j v =>
    refine same ?_ rfl (ht d rfl)
    simp only [Effect] at he
    by_cases hj : j = 120 ∨ j = 123
    · simp only [if_pos hj] at he
      obtain ⟨rnd, e⟩ := he
      rw [e]; exact (notesOffLoop_rest s.midi d rnd 128).1
    · simp only [if_neg hj] at he
      exact he.2
  | automate d _ _ => exact same he.2 rfl (ht d rfl)
  | pitchWheel d _ => exact same he.2 rfl (ht d rfl)
  | program _ => exact same he.2 rfl (le_refl t)
  | channelAftertouch d _ => exact same he.2 rfl (ht d rfl)
  | polyAftertouch d n v =>
    have htd := ht d rfl
    rw [he.2]
    show Presses _ d _
    have hpr : pressed k (.polyAftertouch d n v) = if n = k then some v else none := rfl
    rw [hpr]
    unfold Midi.polyAftertouch
    by_cases hn : n = k
    · subst hn
      rw [if_neg (by omega), if_pos rfl]
      simp only [Midi.upd, Int.toNat_natCast, if_true, Option.getD_some]
      obtain ⟨h1, h2⟩ := back_insert h.good d v (fun e he => (h.time e he).trans htd)
      exact ⟨Midi.good_insert h.good d v, h2, h1⟩
    · rw [if_neg hn]
      split
      · exact h.later htd
      · simp only [Midi.upd]
        rw [if_neg (by omega)]
        exact h.later htd
  | render f snd =>
    by_cases hf : f < 1
    · refine same (by rw [he.2, if_pos hf]) rfl ?_
      show t ≤ if 1 ≤ f then 0 else t
      rw [if_neg (by omega)]
    · have ht0 : timeAfter t (.render f snd) = 0 := if_pos (by omega)
      rw [ht0, he.2, if_neg hf]
      obtain ⟨y, e1, _, e3⟩ := Midi.flushVector_eq h.good.2
      have hy : y = x := by rw [h.value] at e1; exact (Option.some.inj e1).symm
      simp only [e3, hy]
      exact ⟨Midi.good_single x, by simp, by simp [Midi.backValue, pressed]⟩
  | allSoundOff => exact same he.2 rfl (le_refl t)
  | setNumVoices _ => exact same he.2 rfl (le_refl t)

/-- The pressure on a key is the last one received. -/
theorem pressure_after {s0 : E} (k : Nat) (hk : k < 128) (x0 : ℚ) (h0 : Presses (s0.midi.polyAftertouch k) 0 x0) :
    ∀ ops s, run c s0 ops = some s → InOrder ops → Layer.polyAftertouch s.midi k = latest (pressed k) x0 ops := by
  have key : ∀ ops s, run c s0 ops = some s → InOrder ops → Presses (s.midi.polyAftertouch k) (blockTime ops) (latest (pressed k) x0 ops) := by
    refine history_induction (P := fun ops s => InOrder ops → Presses (s.midi.polyAftertouch k) (blockTime ops) (latest (pressed k) x0 ops))
      (fun _ => h0) ?_
    intro ops s op s' _ ih hs ho
    have h1 := step_presses hk (ih ho.prefix) (fun d hd => ho ops op [] rfl d hd) hs
    rw [latest_snoc]
    unfold blockTime
    rw [List.foldl_append]
    exact h1
  intro ops s hr ho
  unfold Layer.polyAftertouch
  rw [if_neg (by omega), Int.toNat_natCast, (key ops s hr ho).value]
  rfl

theorem init_presses (k : Nat) : Presses (Midi.init.polyAftertouch k) 0 0 :=
  ⟨Midi.good_init (.polyAftertouch k), by simp [Midi.init, Midi.resetNoteStates, Midi.setEvents, Midi.resetEventStates], rfl⟩

theorem init_count : Midi.init.activeNotes = downCount c Midi.init [] := by
  unfold downCount isDown latest
  simp [Midi.init, Midi.resetNoteStates, Midi.setEvents]

theorem init_ccValue (k : Nat) : Layer.ccValue Midi.init k = 0 := by
  unfold Layer.ccValue
  simp only [Midi.init, Midi.resetNoteStates, Midi.setEvents, Midi.resetEventStates, Midi.upd]
  repeat' split
  all_goals rfl

/-! ### The theorems -/

/-- C12. On a fresh synthesizer, after every history in which no key is pressed twice or released while up and the events of each block
come in order, when the turn of region `l` comes in the dispatch of a note-on of a key that is up, the region is triggered exactly if all its conditions hold: on the key, the velocity (or the velocity of the note before), the keys that are down, the pressure on the
key, the key-switches, the round robin, the bend, the program, the channel pressure and all controllers. What is missing is what is
missing in `note_triggers_iff_partial`, and histories that press a key twice (`double_press_violated`). -/
theorem note_triggers_history_partial (sw : Option Int) (n : Nat) (gl sl : Nat → Nat) (ops : List Op) (s : E)
    (hr : run c (load c Midi.init sw n gl sl) ops = some s) (hreset : ∀ op ∈ ops, ¬ Resets op) (ho : InOrder ops)
    (d note : Int) (v : ℚ) (hp : Proper c Midi.init (ops ++ [.noteOn d note v])) (hplay : playable c note = true)
    (pre post : List Nat) (l : Nat) (hturn : noteLayers c note = pre ++ l :: post)
    (hq : NoHold (c.regions l)) (hk : KeysOk (c.regions l))
    (hlast : HasLast (c.regions l) ∨ (c.regions l).usesKeySwitches = false)
    (hcc : (c.regions l).triggerOnCC = false)
    (htempo : containsWithEnd (c.regions l).bpmRange (60 / c.beatsPerSecond) = true)
    (sh : E × Option Nat)
    (hpre : pre.foldlM (noteOnLayer c d note v (c.rand s.draws))
      (noteOnSwitches c (draw (heardNote c s d note v)) note, none) = some sh) :
    (Layer.registerNoteOn (c.regions l) sh.1.midi (sh.1.layers l) note v (c.rand s.draws)).2 = true ↔
      Wanted c sw ops (c.regions l) d note v (c.rand s.draws) := by
  rw [note_triggers_iff_partial Midi.init sw n gl sl ops s hr hreset d note v pre post l hturn hq hk hlast hcc htempo sh hpre]
  obtain ⟨hkey, hsw⟩ := (playable_iff note).mp hplay
  have hk0 := hkey.1
  have hk1 := hkey.2
  have hheard : (heardNote c s d note v).midi = Midi.noteOn s.midi d note v (c.midiRand s.draws).1 (c.midiRand s.draws).2 := by
    unfold heardNote; rw [if_pos hsw]
  have hact : s.midi.activeNotes = downCount c Midi.init ops := active_after (s0 := load c Midi.init sw n gl sl) init_count ops s hr hp.prefix
  have hvel := (velocities_after ops s hr).1
  have hpressure := pressure_after (s0 := load c Midi.init sw n gl sl) note.toNat (by omega) 0 (init_presses _) ops s hr ho
  have hcast : ((note.toNat : Nat) : Int) = note := by omega
  rw [hcast] at hpressure
  have h1 : (heardNote c s d note v).midi.velocityOverride = latest (struck c) 0 ops := by
    rw [hheard, (noteOn_velocities hkey).1, hvel]; rfl
  have h2 : (heardNote c s d note v).midi.activeNotes = downCount c Midi.init ops + 1 := by
    rw [hheard, (Midi.noteOn_states hkey).2, hact]
  have h3 : Layer.polyAftertouch (heardNote c s d note v).midi note = latest (pressed note) 0 ops := by
    rw [← hpressure, hheard]
    unfold Layer.polyAftertouch
    rw [noteOn_poly]
  unfold Conditions Wanted
  rw [h1, h2, h3]
  have e1 : downCount c Midi.init ops + 1 = 1 ↔ downCount c Midi.init ops = 0 := by omega
  have e2 : downCount c Midi.init ops + 1 > 1 ↔ downCount c Midi.init ops > 0 := by omega
  rw [e1, e2]
  simp only [init_ccValue]
  exact Iff.rfl

/-- C16: what the sostenuto pedal catches when it goes down are the keys of the region whose last message was a note-on, each with the
velocity of that note-on. -/
theorem held_keys_history (sw : Option Int) (n : Nat) (gl sl : Nat → Nat) (ops : List Op) (s : E)
    (hr : run c (load c Midi.init sw n gl sl) ops = some s) (k : Nat) (hk : k < 128) :
    s.midi.noteStates k = isDown c Midi.init ops k ∧ Layer.noteVelocity s.midi k = latest (struckKey c k) 0 ops :=
  ⟨down_after ops s hr k hk, by unfold Layer.noteVelocity; rw [Int.toNat_natCast]; exact (velocities_after ops s hr).2 k⟩

/-! ### Concrete cases -/

/-- A region for the first key, one for the following ones, one for pressed keys, one for notes after a soft note. -/
def firsts : Cfg := demo [
  { trigger := .first },
  { trigger := .legato },
  { polyAftertouchRange := ⟨1 / 2, 1⟩ },
  { velocityPrevious := true, velocityRange := ⟨1 / 10, 1 / 2⟩ }]

example : ((run firsts (demoLoad firsts 16 16) [.polyAftertouch 0 62 1, .noteOn 0 60 (1 / 4), .noteOn 0 62 1, .noteOff 5 60 0, .noteOff 5 62 0,
    .noteOn 6 64 1]).map soundingRegions) = some [some 0, some 1, some 2, some 3, some 0] := by decide +kernel

/-- The hypotheses of `note_triggers_history_partial` are met by that history before its second note, for the region of soft notes. -/
example : Proper firsts Midi.init ([.polyAftertouch 0 62 1, .noteOn 0 60 (1 / 4)] ++ [.noteOn 0 62 1]) ∧
    InOrder [.polyAftertouch 0 62 1, .noteOn 0 60 (1 / 4)] ∧ playable firsts 62 = true ∧ noteLayers firsts 62 = [0, 1, 2] ++ 3 :: [] ∧
    downCount firsts Midi.init [.polyAftertouch 0 62 1, .noteOn 0 60 (1 / 4)] = 1 := by
  refine ⟨?_, ?_, by decide +kernel, by decide +kernel, by decide +kernel⟩
  · intro pre op post h
    match pre, h with
    | [], h => cases h; trivial
    | [_], h => cases h; intro _; decide +kernel
    | [_, _], h => cases h; intro _; decide +kernel
    | _ :: _ :: _ :: _, h => simp at h
  · intro pre op post h dd hd
    match pre, h with
    | [], h => cases h; cases hd; decide +kernel
    | [_], h => cases h; cases hd; decide +kernel
    | _ :: _ :: _, h => simp at h

example : Wanted firsts none [.polyAftertouch 0 62 1, .noteOn 0 60 (1 / 4)] (firsts.regions 3) 0 62 1 0 := by
  refine ⟨rfl, by decide +kernel, by decide +kernel, by decide +kernel, Or.inl rfl, by decide +kernel, by decide +kernel, by decide +kernel,
    by decide +kernel, by decide +kernel, by decide +kernel, by decide +kernel, ?_⟩
  intro k _ range h
  simp [firsts, demo] at h

/-- C12 fails when a key is pressed twice before it is released: no key is down, but the region for the first key is not triggered by
the next one (it counts messages, MidiState.cpp:42 and 59-60). -/
theorem double_press_violated :
    downCount firsts Midi.init [.noteOn 0 60 1, .noteOn 0 60 1, .noteOff 0 60 0] = 0 ∧
    ((run firsts (demoLoad firsts 16 16) [.noteOn 0 60 1, .noteOn 0 60 1, .noteOff 0 60 0, .render 64 (fun _ => ⟨none, true, true, 0⟩),
      .noteOn 0 64 1]).map soundingRegions) = some [some 1] := by
  constructor <;> decide +kernel

end Verif.Engine
