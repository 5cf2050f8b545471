import Verif.Engine.VoiceLife
import Verif.Engine.Triggering

/-! C15: pedals hold and release voices, for every history of calls. -/
namespace Verif.Engine

variable {c : Cfg}

/-! ### Specification -/

/-- The time within the block of a call. -/
def delayOf : Op → Option Int
  | .noteOn d _ _ | .noteOff d _ _ | .cc d _ _ | .automate d _ _ | .pitchWheel d _ | .channelAftertouch d _
  | .polyAftertouch d _ _ => some d
  | _ => none

/-- The time reached by a call. -/
def timeAfter (t : Int) (op : Op) : Int :=
  match op with
  | .render f _ => if 1 ≤ f then 0 else t
  | op => (delayOf op).getD t

/-- The time within the block reached by a history. -/
def blockTime (ops : List Op) : Int := ops.foldl timeAfter 0

/-- The events of each block come in the order of their times, as the documentation of the API asks. -/
def InOrder (ops : List Op) : Prop := ∀ pre op rest, ops = pre ++ op :: rest → ∀ d, delayOf op = some d → blockTime pre ≤ d

/-- The last message on key `n` was a note-on. -/
def keyMessage (n : Int) : Op → Option Bool
  | .noteOn _ n' _ => if n' = n then some true else none
  | .noteOff _ n' _ => if n' = n then some false else none
  | _ => none

/-- Key `n` is down after the history. -/
def keyDown (n : Int) (ops : List Op) : Bool := latest (keyMessage n) false ops

/-- The last value of controller `k`, `v0` being the values when the instrument was loaded. -/
def controller (c : Cfg) (v0 : Nat → ℚ) (k : Nat) (ops : List Op) : ℚ := latest (sentCC c k) (v0 k) ops

/-- The sustain pedal of the region is down. -/
def sustainDown (c : Cfg) (v0 : Nat → ℚ) (r : Layer.Region) (ops : List Op) : Prop :=
  r.sustainThreshold ≤ controller c v0 r.sustainCC ops

/-- The sostenuto pedal of the region is down. -/
def sostenutoDown (c : Cfg) (v0 : Nat → ℚ) (r : Layer.Region) (ops : List Op) : Prop :=
  r.sostenutoThreshold ≤ controller c v0 r.sostenutoCC ops

/-- A region that listens to both pedals, by ordinary controllers. -/
structure Pedalled (r : Layer.Region) : Prop where
  sustain : r.checkSustain = true
  sostenuto : r.checkSostenuto = true
  sustainCC : r.sustainCC < 128
  sostenutoCC : r.sostenutoCC < 128

/-! ### Controllers of the MIDI state -/

theorem back_insert {l : Midi.EventVector} (h : Midi.Good l) (d : Int) (v : ℚ) (hd : ∀ e ∈ l, e.delay ≤ d) :
    Midi.backValue (Midi.insertEvent l d v) = some v ∧ ∀ e ∈ Midi.insertEvent l d v, e.delay ≤ d := by
  rw [(Midi.insertEvent_eq h.1 d v).2]
  have hs := h.1
  clear h
  induction l with
  | nil => simp [Midi.ins, Midi.backValue]
  | cons a t ih =>
    have hs' := List.pairwise_cons.mp hs
    unfold Midi.ins
    by_cases ha : a.delay < d
    · rw [if_pos ha]
      obtain ⟨h1, h2⟩ := ih (fun e he => hd e (by simp [he])) hs'.2
      refine ⟨?_, ?_⟩
      · unfold Midi.backValue at h1 ⊢
        rw [List.getLast?_cons, Option.map_some]
        cases hg : (Midi.ins d v t).getLast? with
        | none => rw [hg] at h1; cases h1
        | some x => rw [hg] at h1; simpa using h1
      · intro e he
        rcases List.mem_cons.mp he with rfl | he
        · omega
        · exact h2 e he
    · have had : a.delay = d := le_antisymm (hd a (by simp)) (by omega)
      have ht : t = [] := by
        cases t with
        | nil => rfl
        | cons b u =>
          have h1 := hs'.1 b (by simp)
          have h2 := hd b (by simp)
          omega
      subst ht
      rw [if_neg ha, if_pos had]
      simp [Midi.backValue]

/-- Controller `k` holds the value `x`, at time `t` of the block. -/
structure Holds (m : Midi.State) (t : Int) (k : Nat) (x : ℚ) : Prop where
  good : Midi.Good (m.cc k)
  time : ∀ e ∈ m.cc k, e.delay ≤ t
  value : Midi.backValue (m.cc k) = some x

theorem Holds.ccValue {m : Midi.State} {t : Int} {k : Nat} {x : ℚ} (h : Holds m t k x) : Layer.ccValue m k = x := by
  unfold Layer.ccValue; rw [h.value]; rfl

theorem Holds.keep {m m' : Midi.State} {t t' : Int} {k : Nat} {x : ℚ} (h : Holds m t k x) (ht : t ≤ t') (hm : m'.cc k = m.cc k) :
    Holds m' t' k x :=
  ⟨hm ▸ h.good, fun e he => (h.time e (hm ▸ he)).trans ht, hm ▸ h.value⟩

theorem Holds.ccEvent {m : Midi.State} {t d : Int} {k j : Nat} {x y : ℚ} (h : Holds m t k x) (ht : t ≤ d) :
    Holds (Midi.ccEvent m d j y) d k (if k = j then y else x) := by
  by_cases hk : k = j
  · subst hk
    rw [if_pos rfl]
    obtain ⟨h1, h2⟩ := back_insert h.good d y (fun e he => (h.time e he).trans ht)
    have hcc : (Midi.ccEvent m d k y).cc k = Midi.insertEvent (m.cc k) d y := by simp [Midi.ccEvent, Midi.upd]
    exact ⟨by rw [hcc]; exact Midi.good_insert h.good d y, by rw [hcc]; exact h2, by rw [hcc]; exact h1⟩
  · rw [if_neg hk]
    exact h.keep ht (by simp [Midi.ccEvent, Midi.upd, hk])

theorem noteOn_cc (m : Midi.State) (d n : Int) (v u b : ℚ) (k : Nat) (hk : k < 128) : (Midi.noteOn m d n v u b).cc k = m.cc k := by
  unfold Midi.noteOn
  split
  · simp only [Midi.ccEvent, Midi.upd]
    simp only [Midi.ccNoteOnVelocity, Midi.ccKeyboardNoteNumber, Midi.ccUnipolarRandom, Midi.ccBipolarRandom,
      Midi.ccKeyboardNoteGate, Midi.ccKeydelta, Midi.ccAbsoluteKeydelta, Midi.ccAlternate]
    have : ∀ j, 128 ≤ j → k ≠ j := fun j hj => by omega
    simp [this]
  · rfl

theorem noteOff_cc (m : Midi.State) (d n : Int) (v u b : ℚ) (k : Nat) (hk : k < 128) : (Midi.noteOff m d n v u b).cc k = m.cc k := by
  unfold Midi.noteOff
  split
  · simp only [Midi.ccEvent, Midi.upd]
    simp only [Midi.ccNoteOffVelocity, Midi.ccKeyboardNoteNumber, Midi.ccUnipolarRandom, Midi.ccBipolarRandom]
    have : ∀ j, 128 ≤ j → k ≠ j := fun j hj => by omega
    simp [this]
  · rfl

theorem allNotesOff_cc (m : Midi.State) (d : Int) (rnd : Nat → ℚ × ℚ) (k : Nat) (hk : k < 128) :
    (Midi.allNotesOff m d rnd).cc k = m.cc k := by
  have key : ∀ n, (Midi.allNotesOffLoop m d rnd n).cc k = m.cc k := by
    intro n
    induction n with
    | zero => rfl
    | succ n ih =>
    rw [Midi.allNotesOffLoop]
    rw [noteOff_cc _ _ _ _ _ _ _ hk, ih]
  unfold Midi.allNotesOff
  exact key _

theorem ccEvents_holds (f : Nat → ℚ) (d : Int) (k : Nat) : ∀ (n : Nat) (m : Midi.State) (t : Int) (x : ℚ), t ≤ d → Holds m t k x →
    Holds ((List.range n).foldl (fun m cc => Midi.ccEvent m d cc (f cc)) m) d k (if k < n then f k else x) := by
  intro n
  induction n with
  | zero => intro m t x ht h; simpa using h.keep ht rfl
  | succ n ih =>
    intro m t x ht h
    rw [List.range_succ, List.foldl_append, List.foldl_cons, List.foldl_nil]
    have h1 := (ih m t x ht h).ccEvent (j := n) (y := f n) (le_refl d)
    have : (if k = n then f n else if k < n then f k else x) = if k < n + 1 then f k else x := by
      by_cases hk : k = n
      · subst hk; simp
      · rw [if_neg hk]
        by_cases hlt : k < n
        · rw [if_pos hlt, if_pos (by omega)]
        · rw [if_neg hlt, if_neg (by omega)]
    rwa [this] at h1

theorem reset_midi (s : E) (d : Int) :
    (resetAllControllers c s d).midi = (List.range Layer.numCCs).foldl (fun m cc => Midi.ccEvent m d cc (c.defaultCC cc))
      (Midi.pitchBend s.midi d 0) := by
  simp only [resetAllControllers, eachLayer, eachVoice]

/-- What a call does to an ordinary controller of the MIDI state. -/
theorem step_holds {s s' : E} {op : Op} {t : Int} {k : Nat} {x : ℚ} (hk : k < 128) (h : Holds s.midi t k x)
    (ht : ∀ d, delayOf op = some d → t ≤ d) (hs : step c s op = some s') :
    Holds s'.midi (timeAfter t op) k ((sentCC c k op).getD x) := by
  cases op with
  | noteOn d n v =>
    have htd := ht d rfl
    have hs : hdNoteOn c s d n v = some s' := hs
    unfold hdNoteOn at hs
    obtain ⟨h1, _⟩ := noteOnDispatch_core hs
    rw [h1]
    split
    · exact h.keep htd (noteOn_cc _ _ _ _ _ _ _ hk)
    · exact h.keep htd rfl
  | noteOff d n v =>
    have htd := ht d rfl
    have hs : hdNoteOff c s d n v = some s' := hs
    unfold hdNoteOff at hs
    obtain ⟨h1, _⟩ := (noteOffDispatch_atoms _ _ _ _ _ _ hs).frame
    rw [h1]
    simp only [eachVoice]
    split
    · exact h.keep htd (noteOff_cc _ _ _ _ _ _ _ hk)
    · exact h.keep htd rfl
  | cc d j v =>
    have htd := ht d rfl
    have hs : performHdcc c s d j v true (-1) = some s' := hs
    by_cases hc : isCommand true j = true
    · simp only [isCommand, Bool.true_and, Bool.or_eq_true, decide_eq_true_eq] at hc
      by_cases h121 : j = 121
      · subst h121
        have hs' : s' = resetAllControllers c s d := by
          simp only [performHdcc, true_and, if_true] at hs
          cases hs; rfl
        rw [hs', reset_midi]
        have := ccEvents_holds c.defaultCC d k 512 (Midi.pitchBend s.midi d 0) t x htd (h.keep (le_refl t) rfl)
        rw [if_pos (by omega)] at this
        exact this
      · have hj : j = 120 ∨ j = 123 := by omega
        obtain ⟨h1, _⟩ := performHdcc_off hj hs
        rw [h1]
        have : (sentCC c k (.cc d j v)) = none := by simp only [sentCC, h121, if_false, hj, if_true]
        rw [this]
        exact h.keep htd (allNotesOff_cc _ _ _ _ hk)
    · have hc' : isCommand true j = false := by simpa using hc
      obtain ⟨h1, _⟩ := performHdcc_core hc' hs
      simp only [isCommand, Bool.true_and, Bool.or_eq_false_iff, decide_eq_false_iff_not] at hc'
      obtain ⟨⟨n1, n2⟩, n3⟩ := hc'
      rw [h1]
      have := h.ccEvent (j := j) (y := v) htd
      have he : (sentCC c k (.cc d j v)).getD x = if k = j then v else x := by
        simp only [sentCC, n1, n2, n3, if_false, or_self]
        by_cases hkj : j = k
        · simp [hkj]
        · simp [hkj, Ne.symm hkj]
      rw [he]; exact this
  | automate d j v =>
    have hs : performHdcc c s d j v false (-1) = some s' := hs
    obtain ⟨h1, _⟩ := performHdcc_core (by simp [isCommand]) hs
    rw [h1]
    have := h.ccEvent (j := j) (y := v) (ht d rfl)
    have he : (sentCC c k (.automate d j v)).getD x = if k = j then v else x := by
      simp only [sentCC]
      by_cases hkj : j = k
      · simp [hkj]
      · simp [hkj, Ne.symm hkj]
    rw [he]; exact this
  | pitchWheel d v =>
    have hs : hdPitchWheel c s d v = some s' := hs
    unfold hdPitchWheel at hs
    obtain ⟨h1, _⟩ := performHdcc_core (by simp [isCommand]) hs
    rw [h1]
    have := (h.keep (m' := Midi.pitchBend s.midi d v) (le_refl t) rfl).ccEvent (j := 128) (y := v) (ht d rfl)
    rw [if_neg (by omega)] at this
    have he : (sentCC c k (.pitchWheel d v)).getD x = x := by simp [sentCC, show k ≠ 128 by omega]
    rw [he]; exact this
  | program p => cases hs; exact h.keep (le_refl t) rfl
  | channelAftertouch d v =>
    have hs : hdChannelAftertouch c s d v = some s' := hs
    unfold hdChannelAftertouch at hs
    obtain ⟨h1, _⟩ := performHdcc_core (by simp [isCommand]) hs
    rw [h1]
    have := (h.keep (m' := Midi.chanAftertouch s.midi d v) (le_refl t) rfl).ccEvent (j := 129) (y := v) (ht d rfl)
    rw [if_neg (by omega)] at this
    have he : (sentCC c k (.channelAftertouch d v)).getD x = x := by simp [sentCC, show k ≠ 129 by omega]
    rw [he]; exact this
  | polyAftertouch d n v =>
    have hs : hdPolyAftertouch c s d n v = some s' := hs
    unfold hdPolyAftertouch at hs
    obtain ⟨h1, _⟩ := performHdcc_core (by simp [isCommand]) hs
    rw [h1]
    have hcc : (Midi.polyAftertouch s.midi d n v).cc k = s.midi.cc k := by unfold Midi.polyAftertouch; split <;> rfl
    have := (h.keep (m' := Midi.polyAftertouch s.midi d n v) (le_refl t) hcc).ccEvent (j := 130) (y := v) (ht d rfl)
    rw [if_neg (by omega)] at this
    have he : (sentCC c k (.polyAftertouch d n v)).getD x = x := by simp [sentCC, show k ≠ 130 by omega]
    rw [he]; exact this
  | render f snd =>
    have hs : render c s f snd = some s' := hs
    unfold render at hs
    by_cases hf : f < 1
    · rw [if_pos hf] at hs
      cases hs
      have : timeAfter t (.render f snd) = t := if_neg (by omega)
      rw [this]; exact h
    · rw [if_neg hf] at hs
      simp only [Option.bind_eq_bind, Option.bind_eq_some_iff] at hs
      obtain ⟨s1, h1, h2⟩ := hs
      cases h2
      have hm := (eachVoiceM_frame h1).1
      have ht0 : timeAfter t (.render f snd) = 0 := if_pos (by omega)
      rw [ht0]
      obtain ⟨y, e1, _, e3⟩ := Midi.flushVector_eq h.good.2
      have hy : y = x := by rw [h.value] at e1; exact (Option.some.inj e1).symm
      have hcc : (Midi.advanceTime s1.midi f).cc k = [⟨0, x⟩] := by
        show Midi.flushVector (s1.midi.cc k) = _
        rw [hm, e3, hy]
      refine ⟨?_, ?_, ?_⟩
      · show Midi.Good ((Midi.advanceTime s1.midi f).cc k); rw [hcc]; exact Midi.good_single x
      · show ∀ e ∈ (Midi.advanceTime s1.midi f).cc k, _; rw [hcc]; simp
      · show Midi.backValue ((Midi.advanceTime s1.midi f).cc k) = _; rw [hcc]; simp [Midi.backValue, sentCC]
  | allSoundOff =>
    rw [(eachVoiceM_frame hs).1]; exact h
  | setNumVoices n =>
    cases hs
    unfold setNumVoices
    split <;> exact h

theorem InOrder.prefix {ops : List Op} {op : Op} (h : InOrder (ops ++ [op])) : InOrder ops := by
  intro pre o rest he
  exact h pre o (rest ++ [op]) (by rw [he]; simp)

/-- The MIDI state after a history holds the last value sent. -/
theorem run_holds (v0 : Nat → ℚ) (s0 : E) (h0 : ∀ k, s0.midi.cc k = [⟨0, v0 k⟩]) (k : Nat) (hk : k < 128) :
    ∀ ops s, run c s0 ops = some s → InOrder ops → Holds s.midi (blockTime ops) k (controller c v0 k ops) := by
  refine history_induction (P := fun ops s => InOrder ops → Holds s.midi (blockTime ops) k (controller c v0 k ops)) ?_ ?_
  · intro _
    refine ⟨?_, ?_, ?_⟩ <;> rw [h0 k]
    · exact Midi.good_single _
    · simp [blockTime]
    · simp [Midi.backValue, controller, latest]
  · intro ops s op s' _ ih hs ho
    have h1 := step_holds hk (ih ho.prefix) (fun d hd => ho ops op [] rfl d hd) hs
    unfold controller
    rw [latest_snoc]
    unfold blockTime
    rw [List.foldl_append]
    exact h1

/-! ### The pedals of a voice -/

/-- What is kept of a playing voice started by a note-on: `sus` and `sos` are the pedals, `down` the key. -/
structure Held (r : Layer.Region) (sus sos down : Bool) (v : Voice) : Prop where
  sustaining : v.sustaining = sus
  sostenuto : v.sostenuto = .up ↔ sos = false
  key : v.noteIsOff = false → down = true
  released : v.noteIsOff = true → r.oneShot = false → pedalsUp r v = true → v.released = true

theorem told_held {r : Layer.Region} (hr : Pedalled r) {sus sos : Bool} {v : Voice} (cc : Nat) (x : ℚ)
    (h1 : v.sustaining = sus) (h2 : v.sostenuto = .up ↔ sos = false) :
    (told r cc x v).sustaining = (if cc = r.sustainCC then decide (r.sustainThreshold ≤ x) else sus) ∧
    ((told r cc x v).sostenuto = .up ↔ (if cc = r.sostenutoCC then decide (r.sostenutoThreshold ≤ x) else sos) = false) := by
  have e1 := voiceSustain_keeps r (voiceSostenuto r v cc x) cc x
  have e2 := voiceSostenuto_keeps r v cc x
  unfold told
  constructor
  · unfold voiceSustain
    simp only [hr.sostenuto, true_and]
    split
    · split
      · rename_i hx; simp [not_le.mpr hx]
      · rename_i hx; simp [not_lt.mp hx]
    · rw [e2.2.2.2.2.2.2.2.2, h1]
  · rw [e1.2.2.2.2.2.2.2.2]
    unfold voiceSostenuto
    simp only [hr.sustain, true_and]
    split
    · split
      · rename_i hx; simp [not_le.mpr hx]
      split
      · rename_i hx _; simp [not_lt.mp hx]
      · rename_i hx hu; simp [not_lt.mp hx, hu]
    · exact h2

theorem pedalsUp_congr {r : Layer.Region} {v w : Voice} (h1 : v.sustaining = w.sustaining) (h2 : v.sostenuto = w.sostenuto) :
    pedalsUp r v = pedalsUp r w := by unfold pedalsUp; rw [h1, h2]

theorem pedalRec_held {r : Layer.Region} (hr : Pedalled r) {sus sos down : Bool} {v : Voice} (d : Int) (cc : Nat) (x : ℚ)
    (h : Held r sus sos down v) (hp : (pedalRec r d cc x v).state = .playing) :
    Held r (if cc = r.sustainCC then decide (r.sustainThreshold ≤ x) else sus)
      (if cc = r.sostenutoCC then decide (r.sostenutoThreshold ≤ x) else sos) down (pedalRec r d cc x v) := by
  obtain ⟨t1, t2⟩ := told_held hr cc x h.sustaining h.sostenuto
  have k := told_keeps r cc x v
  have q := releaseRec_keeps (told r cc x v) d
  rw [pedalRec_eq] at hp ⊢
  split at hp
  · rename_i hc
    rw [if_pos hc]
    refine ⟨q.2.2.2.2.2.2.1.trans t1, by rw [q.2.2.2.2.2.2.2.1]; exact t2, ?_, ?_⟩
    · rw [q.2.2.2.1, k.2.2.2.2.2.1]; exact h.key
    · intro _ _ _; exact (q.2.2.2.2.2.2.2.2 hp).2
  · rename_i hc
    rw [if_neg hc]
    refine ⟨t1, t2, by rw [k.2.2.2.2.2.1]; exact h.key, ?_⟩
    intro g1 g2 g3
    exact absurd (by simp [g1, g2, g3]) hc

theorem ccRec_held {e : Env} {l : Nat} (hr : Pedalled (e.regions l)) {sus sos down : Bool} {v : Voice} (d : Int) (cc : Nat) (x : ℚ)
    (hl : v.layer = some l) (h : Held (e.regions l) sus sos down v) (hp : (ccRec e d cc x v).state = .playing) :
    Held (e.regions l) (if cc = (e.regions l).sustainCC then decide ((e.regions l).sustainThreshold ≤ x) else sus)
      (if cc = (e.regions l).sostenutoCC then decide ((e.regions l).sostenutoThreshold ≤ x) else sos) down (ccRec e d cc x v) := by
  unfold ccRec at hp ⊢
  simp only [hl] at hp ⊢
  split at hp
  · rename_i hn; exact absurd hp hn
  · rename_i hst
    rw [if_neg hst]
    split at hp
    · rename_i hn
      rw [if_pos hn, if_neg hn.1, if_neg hn.2]; exact h
    · rename_i hn
      rw [if_neg hn]
      split at hp
      · rename_i hc
        rw [if_pos hc]
        have hh := pedalRec_held hr d cc x h hp
        refine ⟨hh.sustaining, hh.sostenuto, hh.key, ?_⟩
        intro _ _ hu
        simp only [cancels, Bool.and_eq_true] at hc
        obtain ⟨⟨⟨⟨⟨_, hs⟩, _⟩, _⟩, _⟩, _⟩ := hc
        exfalso
        simp only [pedalsUp, hr.sustain, hs, Bool.not_true, Bool.or_self, Bool.false_and] at hu
        cases hu
      · rename_i hc
        rw [if_neg hc]
        exact pedalRec_held hr d cc x h hp

theorem ccRec_frame (e : Env) (d : Int) (cc : Nat) (x : ℚ) (v : Voice) : (ccRec e d cc x v).layer = v.layer ∧
    (ccRec e d cc x v).trig = v.trig ∧ ((ccRec e d cc x v).state = .playing → v.state = .playing) := by
  unfold ccRec
  cases hl : v.layer with
  | none => exact ⟨hl, rfl, id⟩
  | some l =>
    simp only
    have hk := pedalRec_keeps (e.regions l) d cc x v
    split
    · exact ⟨hl, rfl, id⟩
    split
    · exact ⟨hl, rfl, id⟩
    split
    · exact ⟨hk.2.2.2.2.2.1.trans hl, hk.2.2.2.2.1, fun h => (hk.2.2.2.2.2.2 h).1⟩
    · exact ⟨hk.2.2.2.2.2.1.trans hl, hk.2.2.2.2.1, fun h => (hk.2.2.2.2.2.2 h).1⟩

/-- The reset of controllers, up to controller `n`. -/
theorem resetRec_held {l : Nat} (hr : Pedalled (c.regions l)) {sus sos down : Bool} (d : Int) (n : Nat) {v : Voice}
    (hl : v.layer = some l) (h : v.state = .playing → Held (c.regions l) sus sos down v) :
    (resetRec c d (List.range n) v).layer = some l ∧ (resetRec c d (List.range n) v).trig = v.trig ∧
    ((resetRec c d (List.range n) v).state = .playing → v.state = .playing ∧
      Held (c.regions l)
        (if (c.regions l).sustainCC < n then decide ((c.regions l).sustainThreshold ≤ c.defaultCC (c.regions l).sustainCC) else sus)
        (if (c.regions l).sostenutoCC < n then decide ((c.regions l).sostenutoThreshold ≤ c.defaultCC (c.regions l).sostenutoCC)
          else sos) down (resetRec c d (List.range n) v)) := by
  induction n with
  | zero => exact ⟨hl, rfl, fun hp => ⟨hp, h hp⟩⟩
  | succ n ih =>
    obtain ⟨i1, i2, i3⟩ := ih
    have he : resetRec c d (List.range (n + 1)) v = ccRec c.toEnv d n (c.defaultCC n) (resetRec c d (List.range n) v) := by
      unfold resetRec
      rw [List.range_succ, List.foldl_append, List.foldl_cons, List.foldl_nil]
    rw [he]
    obtain ⟨f1, f2, f3⟩ := ccRec_frame c.toEnv d n (c.defaultCC n) (resetRec c d (List.range n) v)
    refine ⟨f1.trans i1, f2.trans i2, fun hp => ?_⟩
    obtain ⟨g1, g2⟩ := i3 (f3 hp)
    refine ⟨g1, ?_⟩
    have hh := ccRec_held hr d n (c.defaultCC n) i1 g2 hp
    have e1 : (if n = (c.regions l).sustainCC then decide ((c.regions l).sustainThreshold ≤ c.defaultCC n)
        else if (c.regions l).sustainCC < n then decide ((c.regions l).sustainThreshold ≤ c.defaultCC (c.regions l).sustainCC) else sus)
        = (if (c.regions l).sustainCC < n + 1 then decide ((c.regions l).sustainThreshold ≤ c.defaultCC (c.regions l).sustainCC) else sus) := by
      by_cases hn : n = (c.regions l).sustainCC
      · rw [if_pos hn, if_pos (by omega), ← hn]
      · rw [if_neg hn]
        by_cases hlt : (c.regions l).sustainCC < n
        · rw [if_pos hlt, if_pos (by omega)]
        · rw [if_neg hlt, if_neg (by omega)]
    have e2 : (if n = (c.regions l).sostenutoCC then decide ((c.regions l).sostenutoThreshold ≤ c.defaultCC n)
        else if (c.regions l).sostenutoCC < n then decide ((c.regions l).sostenutoThreshold ≤ c.defaultCC (c.regions l).sostenutoCC) else sos)
        = (if (c.regions l).sostenutoCC < n + 1 then decide ((c.regions l).sostenutoThreshold ≤ c.defaultCC (c.regions l).sostenutoCC) else sos) := by
      by_cases hn : n = (c.regions l).sostenutoCC
      · rw [if_pos hn, if_pos (by omega), ← hn]
      · rw [if_neg hn]
        by_cases hlt : (c.regions l).sostenutoCC < n
        · rw [if_pos hlt, if_pos (by omega)]
        · rw [if_neg hlt, if_neg (by omega)]
    rw [e1, e2] at hh
    exact hh

theorem noteOffRec_frame (e : Env) (d n : Int) (v : Voice) : (noteOffRec e d n v).layer = v.layer ∧
    (noteOffRec e d n v).trig = v.trig ∧ ((noteOffRec e d n v).state = .playing → v.state = .playing) := by
  unfold noteOffRec
  cases hl : v.layer with
  | none => exact ⟨hl, rfl, id⟩
  | some l =>
    simp only
    have hk := releaseRec_keeps (keyUp v) d
    split
    · exact ⟨hl, rfl, id⟩
    split
    · split
      · exact ⟨hl, rfl, id⟩
      split
      · exact ⟨hk.2.2.2.2.2.1.trans hl, hk.2.2.2.2.1, fun h => (hk.2.2.2.2.2.2.2.2 h).1⟩
      · exact ⟨hl, rfl, id⟩
    · exact ⟨hl, rfl, id⟩

theorem noteOffRec_held {e : Env} {l : Nat} {sus sos down : Bool} {v : Voice} (d n : Int)
    (hl : v.layer = some l) (ht : v.trig.type = .noteOn) (h : Held (e.regions l) sus sos down v)
    (hp : (noteOffRec e d n v).state = .playing) :
    Held (e.regions l) sus sos (if v.trig.number = n then false else down) (noteOffRec e d n v) := by
  unfold noteOffRec at hp ⊢
  simp only [hl] at hp ⊢
  split at hp
  · rename_i hn; exact absurd hp hn
  · rename_i hst
    rw [if_neg hst]
    by_cases hn : v.trig.number = n
    · rw [if_pos hn]
      rw [if_pos ⟨hn, ht⟩] at hp
      rw [if_pos ⟨hn, ht⟩]
      have q := releaseRec_keeps (keyUp v) d
      split at hp
      · rename_i ho
        rw [if_pos ho]
        refine ⟨h.sustaining, h.sostenuto, ?_, ?_⟩
        · intro h; simp [keyUp] at h
        · intro _ h; rw [ho] at h; cases h
      · rename_i ho
        rw [if_neg ho]
        split at hp
        · rename_i hu
          rw [if_pos hu]
          refine ⟨q.2.2.2.2.2.2.1.trans h.sustaining, by rw [q.2.2.2.2.2.2.2.1]; exact h.sostenuto, ?_, ?_⟩
          · intro hh; rw [q.2.2.2.1] at hh; simp [keyUp] at hh
          · intro _ _ _; exact (q.2.2.2.2.2.2.2.2 hp).2
        · rename_i hu
          rw [if_neg hu]
          refine ⟨h.sustaining, h.sostenuto, ?_, ?_⟩
          · intro h; simp [keyUp] at h
          · intro _ _ h; exact absurd h hu
    · rw [if_neg hn, if_neg (fun hh => hn hh.1)]
      exact h

theorem Held.off {r : Layer.Region} {sus sos down : Bool} {v : Voice} (h : Held r sus sos down v) (d : Int)
    (hp : (offRec v d).state = .playing) : Held r sus sos down (offRec v d) := by
  obtain ⟨_, _, _, k4, _, _, k7, k8, k9⟩ := offRec_keeps v d
  exact ⟨k7.trans h.sustaining, by rw [k8]; exact h.sostenuto, by rw [k4]; exact h.key, fun _ _ _ => k9 hp⟩

theorem Held.render {r : Layer.Region} {sus sos down : Bool} {v : Voice} (h : Held r sus sos down v) (f : Nat) (snd : Sound)
    (hp : (renderRec c f snd v).state = .playing) : Held r sus sos down (renderRec c f snd v) := by
  unfold renderRec at hp ⊢
  cases hs : snd.sampleEnded with
  | none =>
    simp only
    refine ⟨h.sustaining, h.sostenuto, h.key, ?_⟩
    intro g1 g2 g3
    simp only [aged] at g1 ⊢
    rw [h.released g1 g2 g3]; rfl
  | some d =>
    simp only [hs] at hp ⊢
    have h1 := h.off d hp
    refine ⟨h1.sustaining, h1.sostenuto, h1.key, ?_⟩
    intro g1 g2 g3
    simp only [aged] at g1 ⊢
    rw [h1.released g1 g2 g3]; rfl

theorem startRec_held (e : Env) (m : Midi.State) (l : Nat) (d : Int) (t : Trig) (v : Voice) (hr : Pedalled (e.regions l)) {x y : ℚ}
    (hx : Layer.ccValue m (e.regions l).sustainCC = x) (hy : Layer.ccValue m (e.regions l).sostenutoCC = y) :
    Held (e.regions l) (decide ((e.regions l).sustainThreshold ≤ x)) (decide ((e.regions l).sostenutoThreshold ≤ y)) true
      (startRec e m l d t (cleared v)) := by
  have k := startRec_keeps e m l d t v
  refine ⟨?_, ?_, fun _ => rfl, ?_⟩
  · simp only [startRec, ready, hr.sustain, hr.sostenuto, if_true, hx]; try rfl
  · simp only [startRec, ready, hr.sustain, hr.sostenuto, if_true, hy]
    split
    · rename_i hh; simp [hh]
    · rename_i hh; simp [hh]
  · intro h; rw [k.2.2.2.2.1] at h; cases h

/-! ### History -/

instance (v0 : Nat → ℚ) (r : Layer.Region) (ops : List Op) : Decidable (sustainDown c v0 r ops) := by
  unfold sustainDown; infer_instance

instance (v0 : Nat → ℚ) (r : Layer.Region) (ops : List Op) : Decidable (sostenutoDown c v0 r ops) := by
  unfold sostenutoDown; infer_instance

/-- The invariant of a voice after a history. -/
def VoiceHeld (c : Cfg) (v0 : Nat → ℚ) (ops : List Op) (v : Voice) : Prop :=
  v.trig.type = .noteOn → ∀ l, v.layer = some l → Pedalled (c.regions l) →
    Held (c.regions l) (decide ((c.regions l).sustainThreshold ≤ controller c v0 (c.regions l).sustainCC ops))
      (decide ((c.regions l).sostenutoThreshold ≤ controller c v0 (c.regions l).sostenutoCC ops))
      (keyDown v.trig.number ops) v


theorem keyDown_snoc (n : Int) (ops : List Op) (op : Op) : keyDown n (ops ++ [op]) = (keyMessage n op).getD (keyDown n ops) :=
  latest_snoc _ _ _ _

theorem controller_snoc (v0 : Nat → ℚ) (k : Nat) (ops : List Op) (op : Op) :
    controller c v0 k (ops ++ [op]) = (sentCC c k op).getD (controller c v0 k ops) := latest_snoc _ _ _ _

/-- A call that sends nothing to the pedals and leaves the keys of voices alone. -/
theorem VoiceHeld.quiet {v0 : Nat → ℚ} {ops : List Op} {op : Op} {v : Voice} (h : VoiceHeld c v0 ops v)
    (h1 : ∀ k, k < 128 → sentCC c k op = none) (h2 : ∀ n, keyMessage n op ≠ some false) : VoiceHeld c v0 (ops ++ [op]) v := by
  intro ht l hl hr
  have hh := h ht l hl hr
  rw [controller_snoc, controller_snoc, h1 _ hr.sustainCC, h1 _ hr.sostenutoCC, keyDown_snoc]
  refine ⟨hh.sustaining, hh.sostenuto, fun h => ?_, hh.released⟩
  cases hk : keyMessage v.trig.number op with
  | none => exact hh.key h
  | some b =>
    cases b with
    | true => rfl
    | false => exact absurd hk (h2 _)

theorem voiceHeld_off (v0 : Nat → ℚ) (ops : List Op) : OffClosed (fun _ v => VoiceHeld c v0 ops v) := by
  intro i v d _ h hp ht l hl hr
  obtain ⟨_, _, _, _, k5, k6, _⟩ := offRec_keeps v d
  rw [k5] at ht ⊢; rw [k6] at hl
  exact (h ht l hl hr).off d hp

theorem voiceHeld_start (v0 : Nat → ℚ) (ops : List Op) (m : Midi.State) (T : EvType → Prop) (hT : ¬ T .noteOn) :
    StartClosed c m T (fun _ v => VoiceHeld c v0 ops v) := by
  intro i l d t v ht hty
  rw [(startRec_keeps c.toEnv m l d t v).2.2.2.2.2.1] at hty
  rw [hty] at ht; exact absurd ht hT

/-- A controller event of the engine. -/
theorem hdcc_held {v0 : Nat → ℚ} {ops : List Op} {op : Op} {s s' : E} {d : Int} {j : Nat} {x : ℚ} {b : Bool} {arg : Int}
    (h : Hold (fun _ v => VoiceHeld c v0 ops v) s.vm) (hc : isCommand b j = false)
    (h1 : ∀ k, k < 128 → sentCC c k op = if k = j then some x else none) (h2 : ∀ n, keyMessage n op = none)
    (hs : performHdcc c s d j x b arg = some s') : Hold (fun _ v => VoiceHeld c v0 (ops ++ [op]) v) s'.vm := by
  rcases performHdcc_cases hs with ⟨hb, hj, _⟩ | ⟨hb, hj, _⟩ | ⟨_, s1, g1, g2⟩
  · subst hb hj; simp [isCommand] at hc
  · subst hb; rcases hj with rfl | rfl <;> simp [isCommand] at hc
  · rw [g2]
    refine Hold.ccDispatch (voiceHeld_off v0 _) (voiceHeld_start v0 _ _ _ (by simp)) ?_ g1
    refine Hold.eachVoice' (voiceCC_own c.toEnv d j x) ?_ h
    intro i v hv hp ht l hl hr
    obtain ⟨f1, f2, f3⟩ := ccRec_frame c.toEnv d j x v
    rw [f2] at ht ⊢; rw [f1] at hl
    have hh := ccRec_held hr d j x hl (hv (f3 hp) ht l hl hr) hp
    rw [controller_snoc, controller_snoc, h1 _ hr.sustainCC, h1 _ hr.sostenutoCC, keyDown_snoc, h2]
    have e1 : decide ((c.regions l).sustainThreshold ≤ (if (c.regions l).sustainCC = j then some x else none).getD
        (controller c v0 (c.regions l).sustainCC ops)) = (if j = (c.regions l).sustainCC then decide ((c.regions l).sustainThreshold ≤ x)
        else decide ((c.regions l).sustainThreshold ≤ controller c v0 (c.regions l).sustainCC ops)) := by
      by_cases hj : j = (c.regions l).sustainCC
      · simp [hj]
      · simp [hj, Ne.symm hj]
    have e2 : decide ((c.regions l).sostenutoThreshold ≤ (if (c.regions l).sostenutoCC = j then some x else none).getD
        (controller c v0 (c.regions l).sostenutoCC ops)) = (if j = (c.regions l).sostenutoCC then decide ((c.regions l).sostenutoThreshold ≤ x)
        else decide ((c.regions l).sostenutoThreshold ≤ controller c v0 (c.regions l).sostenutoCC ops)) := by
      by_cases hj : j = (c.regions l).sostenutoCC
      · simp [hj]
      · simp [hj, Ne.symm hj]
    rw [e1, e2]
    exact hh

/-- The pedals and the key of every voice follow the history. -/
theorem run_held (v0 : Nat → ℚ) (m : Midi.State) (sw : Option Int) (n : Nat) (gl sl : Nat → Nat)
    (h0 : ∀ k, m.cc k = [⟨0, v0 k⟩]) :
    ∀ ops s, run c (load c m sw n gl sl) ops = some s → InOrder ops → Hold (fun _ v => VoiceHeld c v0 ops v) s.vm := by
  refine history_induction (P := fun ops s => InOrder ops → Hold (fun _ v => VoiceHeld c v0 ops v) s.vm) ?_ ?_
  · intro _; exact Hold.load m sw n gl sl
  · intro ops s op s' hrun ih hs ho
    have h := ih ho.prefix
    have hm : ∀ k, k < 128 → Holds s.midi (blockTime ops) k (controller c v0 k ops) := fun k hk =>
      run_holds v0 (load c m sw n gl sl) h0 k hk ops s hrun ho.prefix
    cases op with
    | noteOn d n v =>
      have hs : hdNoteOn c s d n v = some s' := hs
      unfold hdNoteOn at hs
      refine Hold.noteOnDispatch (voiceHeld_off v0 _) (voiceHeld_start v0 _ _ _ (by simp)) ?_ ?_ hs
      · intro i l d' w ht l' hl hr
        have k := startRec_keeps c.toEnv (if (lastLayers c n).isEmpty = true then
            { s with midi := Midi.noteOn s.midi d n v (c.midiRand s.draws).1 (c.midiRand s.draws).2 } else s).midi l d'
            { type := .noteOn, number := n, value := v } w
        rw [k.2.2.2.2.2.2.1] at hl
        cases hl
        have hcc : ∀ k, k < 128 → Layer.ccValue (if (lastLayers c n).isEmpty = true then
            { s with midi := Midi.noteOn s.midi d n v (c.midiRand s.draws).1 (c.midiRand s.draws).2 } else s).midi k
            = controller c v0 k ops := by
          intro k hk
          rw [← (hm k hk).ccValue]
          unfold Layer.ccValue
          split
          · rw [noteOn_cc _ _ _ _ _ _ _ hk]
          · rfl
        have hh := startRec_held c.toEnv _ l d' { type := .noteOn, number := n, value := v } w hr
          (hcc _ hr.sustainCC) (hcc _ hr.sostenutoCC)
        rw [controller_snoc, controller_snoc, keyDown_snoc]
        have hnum : (startRec c.toEnv (if (lastLayers c n).isEmpty = true then
            { s with midi := Midi.noteOn s.midi d n v (c.midiRand s.draws).1 (c.midiRand s.draws).2 } else s).midi l d'
            { type := .noteOn, number := n, value := v } (cleared w)).trig.number = n := by
          unfold startRec
          rw [(ready_keeps _ _ _ _ _).2.2.2.2.2.1]
          simp [timed, armed]
        rw [hnum]
        have hk : keyMessage n (.noteOn d n v) = some true := by simp [keyMessage]
        rw [hk]
        exact hh
      · have : Hold (fun _ v => VoiceHeld c v0 ops v) (if (lastLayers c n).isEmpty = true then
            { s with midi := Midi.noteOn s.midi d n v (c.midiRand s.draws).1 (c.midiRand s.draws).2 } else s).vm := by
          split <;> exact h
        intro i hi hp
        refine (this i hi hp).quiet (fun _ _ => rfl) ?_
        intro k
        simp only [keyMessage]
        split <;> simp
    | noteOff d n v =>
      have hs : hdNoteOff c s d n v = some s' := hs
      unfold hdNoteOff at hs
      refine Hold.offs (voiceHeld_off v0 _) (noteOffDispatch_atoms _ _ _ _ _ _ hs) (voiceHeld_start v0 _ _ _ (by simp)) ?_
      refine Hold.eachVoice' (Q := fun _ v => VoiceHeld c v0 ops v) (voiceNoteOff_own c.toEnv d n) ?_ ?_
      · intro i w hv hp ht l hl hr
        obtain ⟨f1, f2, f3⟩ := noteOffRec_frame c.toEnv d n w
        rw [f2] at ht ⊢; rw [f1] at hl
        have hh := noteOffRec_held d n hl ht (hv (f3 hp) ht l hl hr) hp
        rw [controller_snoc, controller_snoc, keyDown_snoc]
        have hk : (keyMessage w.trig.number (.noteOff d n v)).getD (keyDown w.trig.number ops) =
            if w.trig.number = n then false else keyDown w.trig.number ops := by
          simp only [keyMessage]
          by_cases he : n = w.trig.number
          · simp [he]
          · simp [he, Ne.symm he]
        rw [hk]; exact hh
      · split <;> exact h
    | cc d j v =>
      have hs : performHdcc c s d j v true (-1) = some s' := hs
      by_cases hc : isCommand true j = true
      · simp only [isCommand, Bool.true_and, Bool.or_eq_true, decide_eq_true_eq] at hc
        rcases performHdcc_cases hs with ⟨_, hj, g1⟩ | ⟨_, _, s1, g1, g2⟩ | ⟨hn, _⟩
        · subst hj
          rw [g1]
          refine Hold.eachVoice' (resetVoiceCCs_own c d) ?_ h
          have hnum : ∀ r : Layer.Region, Pedalled r → r.sustainCC < Layer.numCCs ∧ r.sostenutoCC < Layer.numCCs := by
            intro r hr
            have := hr.sustainCC; have := hr.sostenutoCC
            unfold Layer.numCCs; omega
          revert hnum
          generalize Layer.numCCs = N
          intro hnum i w hv hp ht l hl hr
          have hlt : w.layer = some l ∧ w.trig = (resetRec c d (List.range N) w).trig := by
            have : ∀ L : List Nat, (resetRec c d L w).layer = w.layer ∧ (resetRec c d L w).trig = w.trig := by
              intro L
              unfold resetRec
              induction L using List.reverseRecOn with
              | nil => exact ⟨rfl, rfl⟩
              | append_singleton L a ih =>
                rw [List.foldl_append, List.foldl_cons, List.foldl_nil]
                obtain ⟨f1, f2, _⟩ := ccRec_frame c.toEnv d a (c.defaultCC a) (L.foldl (fun v cc => ccRec c.toEnv d cc (c.defaultCC cc) v) w)
                exact ⟨f1.trans ih.1, f2.trans ih.2⟩
            obtain ⟨a1, a2⟩ := this (List.range N)
            exact ⟨a1 ▸ hl, a2.symm⟩
          rw [← hlt.2] at ht ⊢
          obtain ⟨_, _, q3⟩ := resetRec_held hr d N hlt.1 (fun hw => hv hw ht l hlt.1 hr)
          obtain ⟨_, hh⟩ := q3 hp
          rw [if_pos (hnum _ hr).1, if_pos (hnum _ hr).2] at hh
          rw [controller_snoc, controller_snoc, keyDown_snoc]
          have e1 : ∀ k, sentCC c k (.cc d 121 v) = some (c.defaultCC k) := by intro k; simp [sentCC]
          rw [e1, e1]
          exact hh
        · rw [g2]; exact Hold.resetAll g1
        · exact absurd ⟨rfl, by tauto⟩ hn
      · have hc' : isCommand true j = false := by simpa using hc
        refine hdcc_held h hc' ?_ (fun _ => rfl) hs
        intro k _
        simp only [isCommand, Bool.true_and, Bool.or_eq_false_iff, decide_eq_false_iff_not] at hc'
        obtain ⟨⟨n1, n2⟩, n3⟩ := hc'
        simp only [sentCC, n1, n2, n3, if_false, or_self]
        by_cases hkj : j = k
        · simp [hkj]
        · simp [hkj, Ne.symm hkj]
    | automate d j v =>
      refine hdcc_held h (by simp [isCommand]) ?_ (fun _ => rfl) (show performHdcc c s d j v false (-1) = some s' from hs)
      intro k _
      simp only [sentCC]
      by_cases hkj : j = k
      · simp [hkj]
      · simp [hkj, Ne.symm hkj]
    | pitchWheel d v =>
      have hs : hdPitchWheel c s d v = some s' := hs
      unfold hdPitchWheel at hs
      refine hdcc_held (by rw [eachLayer_vm]; exact h) (by simp [isCommand]) ?_ (fun _ => rfl) hs
      intro k hk
      simp only [sentCC]
    | program p =>
      cases hs
      intro i hi hp
      exact (h i hi hp).quiet (fun _ _ => rfl) (by simp [keyMessage])
    | channelAftertouch d v =>
      have hs : hdChannelAftertouch c s d v = some s' := hs
      unfold hdChannelAftertouch at hs
      refine hdcc_held (by rw [eachLayer_vm]; exact h) (by simp [isCommand]) ?_ (fun _ => rfl) hs
      intro k hk
      simp only [sentCC]
    | polyAftertouch d n v =>
      have hs : hdPolyAftertouch c s d n v = some s' := hs
      unfold hdPolyAftertouch at hs
      refine hdcc_held (by exact h) (by simp [isCommand]) ?_ (fun _ => rfl) hs
      intro k hk
      simp only [sentCC]
    | render f snd =>
      have key : Hold (fun _ v => VoiceHeld c v0 ops v) s'.vm := by
        by_cases hf : 1 ≤ f
        · obtain ⟨k1, k2⟩ := render_voices hf hs
          intro i hi hp
          rw [k1] at hi
          obtain ⟨hp', ⟨he, _⟩ | ⟨he, _⟩⟩ := k2 i hi hp
          · rw [he]; exact h i hi hp'
          · rw [he] at hp ⊢
            intro ht l hl hr
            have hfr : (renderRec c f (snd i) (s.vm.voices i)).layer = (s.vm.voices i).layer ∧
                (renderRec c f (snd i) (s.vm.voices i)).trig = (s.vm.voices i).trig := by
              unfold renderRec aged
              cases (snd i).sampleEnded with
              | none => exact ⟨rfl, rfl⟩
              | some d => exact ⟨(offRec_keeps _ d).2.2.2.2.2.1, (offRec_keeps _ d).2.2.2.2.1⟩
            rw [hfr.2] at ht ⊢; rw [hfr.1] at hl
            exact (h i hi hp' ht l hl hr).render f (snd i) hp
        · have hs : render c s f snd = some s' := hs
          unfold render at hs
          rw [if_pos (by omega)] at hs
          cases hs; exact h
      intro i hi hp
      exact (key i hi hp).quiet (fun _ _ => rfl) (by simp [keyMessage])
    | allSoundOff => exact Hold.resetAll hs
    | setNumVoices n =>
      cases hs
      unfold setNumVoices
      split
      · intro i hi hp
        exact (h i hi hp).quiet (fun _ _ => rfl) (by simp [keyMessage])
      · intro i _ hp
        simp [initVM] at hp

end Verif.Engine
