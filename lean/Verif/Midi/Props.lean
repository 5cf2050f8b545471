import Verif.Midi.Lemmas

/-!
MIDI state: C08 (event vectors), C09 (block boundaries), C10 (value at a frame), C11 (held notes),
C54 (note durations), C55 (alternation).
-/
namespace Verif.Midi

/-! ### Vocabulary -/

/-- What a host can modulate with. -/
inductive Target where
  | cc (n : Nat)
  | pitch
  | channelAftertouch
  | polyAftertouch (note : Nat)
  deriving DecidableEq

/-- The events stored for a target. -/
def vec (s : State) : Target → EventVector
  | .cc n => s.cc n
  | .pitch => s.pitch
  | .channelAftertouch => s.channelAftertouch
  | .polyAftertouch n => s.polyAftertouch n

/-- The current value of a target. -/
def current (s : State) (t : Target) : Option ℚ := backValue (vec s t)

/-- A valid key number. -/
abbrev IsKey (note : Int) : Prop := 0 ≤ note ∧ note < 128

/-- The controllers computed by the engine from its own history of notes. -/
def Derived : Target → Bool
  | .cc n => n = 134 || n = 137 || n = 140 || n = 141
  | _ => false

/-- The timed values a message sends to a (not derived) target, in order. -/
def sentTo (t : Target) : Op → List (Int × ℚ)
  | .cc d n v => if t = .cc n then [(d, v)] else []
  | .pitchBend d v => if t = .pitch then [(d, v)] else []
  | .chanAftertouch d v => if t = .channelAftertouch then [(d, v)] else []
  | .polyAftertouch d n v => if IsKey n ∧ t = .polyAftertouch n.toNat then [(d, v)] else []
  | .noteOn d n v u b =>
    if IsKey n then
      if t = .cc 131 then [(d, v)]
      else if t = .cc 133 then [(d, (n : ℚ) / 127)]
      else if t = .cc 135 then [(d, u)]
      else if t = .cc 136 then [(d, b)]
      else []
    else []
  | .noteOff d n v u b =>
    if IsKey n then
      if t = .cc 132 then [(d, v)]
      else if t = .cc 133 then [(d, (n : ℚ) / 127)]
      else if t = .cc 135 then [(d, u)]
      else if t = .cc 136 then [(d, b)]
      else []
    else []
  | _ => []

/-- Messages, as opposed to block boundaries and resets. -/
def IsMessage : Op → Bool
  | .cc .. | .pitchBend .. | .chanAftertouch .. | .polyAftertouch .. | .noteOn .. | .noteOff .. | .programChange .. => true
  | _ => false

/-- The last value sent for a given time. -/
def lastFor (d : Int) (l : List (Int × ℚ)) : Option ℚ :=
  ((l.filter (fun p => p.1 = d)).getLast?).map (·.2)

/-! ### Proofs -/

theorem vec_ccEvent (s : State) (d : Int) (n : Nat) (v : ℚ) (t : Target) :
    vec (ccEvent s d n v) t = if t = .cc n then insertEvent (vec s t) d v else vec s t := by
  cases t with
  | cc m =>
    simp only [vec, ccEvent, upd, Target.cc.injEq]
    split
    · rename_i h; rw [h]
    · rfl
  | _ => simp [vec, ccEvent]

/-- Well-formed vectors. -/
def Good (l : EventVector) : Prop := Sorted l ∧ l ≠ []

theorem good_insert {l : EventVector} (h : Good l) (d : Int) (v : ℚ) : Good (insertEvent l d v) := by
  rw [(insertEvent_eq h.1 d v).2]
  exact ⟨ins_sorted h.1 d v, ins_ne_nil d v l⟩

theorem good_single (v : ℚ) : Good [⟨0, v⟩] := ⟨by simp [Sorted], by simp⟩

theorem flushVector_eq {l : EventVector} (h : l ≠ []) :
    ∃ v, backValue l = some v ∧ flushVector? l = some [⟨0, v⟩] ∧ flushVector l = [⟨0, v⟩] := by
  cases l with
  | nil => exact absurd rfl h
  | cons a t =>
    obtain ⟨b, hb⟩ : ∃ b, (a :: t).getLast? = some b := ⟨_, List.getLast?_cons⟩
    have hf : flushVector? (a :: t) = some [⟨0, b.value⟩] := by
      unfold flushVector?
      rw [hb]
      rfl
    exact ⟨b.value, by simp [backValue, hb], hf, by simp [flushVector, hf]⟩

theorem good_ccEvent {s : State} (h : ∀ t, Good (vec s t)) (d : Int) (n : Nat) (v : ℚ) :
    ∀ t, Good (vec (ccEvent s d n v) t) := by
  intro t
  rw [vec_ccEvent]
  split
  · exact good_insert (h t) d v
  · exact h t

theorem vec_congr {s s' : State} (h1 : s'.cc = s.cc) (h2 : s'.pitch = s.pitch)
    (h3 : s'.channelAftertouch = s.channelAftertouch) (h4 : s'.polyAftertouch = s.polyAftertouch) (t : Target) :
    vec s' t = vec s t := by
  cases t <;> simp [vec, *]

theorem good_noteOn {s : State} (h : ∀ t, Good (vec s t)) (d n : Int) (v u b : ℚ) :
    ∀ t, Good (vec (noteOn s d n v u b) t) := by
  unfold noteOn
  split
  · intro t
    simp only
    rw [vec_congr rfl rfl rfl rfl t]
    revert t
    apply good_ccEvent
    intro t
    rw [vec_congr rfl rfl rfl rfl t]
    revert t
    repeat apply good_ccEvent
    intro t
    rw [vec_congr rfl rfl rfl rfl t]
    exact h t
  · exact h

theorem good_noteOff {s : State} (h : ∀ t, Good (vec s t)) (d n : Int) (v u b : ℚ) :
    ∀ t, Good (vec (noteOff s d n v u b) t) := by
  unfold noteOff
  split
  · intro t
    simp only
    rw [vec_congr rfl rfl rfl rfl t]
    revert t
    intro t
    rw [vec_congr rfl rfl rfl rfl t]
    revert t
    repeat apply good_ccEvent
    intro t
    rw [vec_congr rfl rfl rfl rfl t]
    exact h t
  · exact h

theorem good_setEvents {s : State} (h : ∀ t, Good (vec s t)) (n : Nat) (v : ℚ) :
    ∀ t, Good (vec (setEvents s n v) t) := by
  intro t
  cases t with
  | cc m =>
    simp only [vec, setEvents, upd]
    split
    · exact good_single v
    · exact h (.cc m)
  | pitch => exact h .pitch
  | channelAftertouch => exact h .channelAftertouch
  | polyAftertouch m => exact h (.polyAftertouch m)

theorem good_flush {s : State} (h : ∀ t, Good (vec s t)) : ∀ t, Good (vec (flushEvents s) t) := by
  intro t
  have : vec (flushEvents s) t = flushVector (vec s t) := by cases t <;> rfl
  rw [this]
  obtain ⟨v, _, _, hv⟩ := flushVector_eq (h t).2
  rw [hv]; exact good_single v

theorem good_step {s : State} (h : ∀ t, Good (vec s t)) (op : Op) : ∀ t, Good (vec (step s op) t) := by
  cases op with
  | noteOn d n v u b => exact good_noteOn h d n v u b
  | noteOff d n v u b => exact good_noteOff h d n v u b
  | allNotesOff d rnd =>
    show ∀ t, Good (vec (allNotesOffLoop s d rnd 128) t)
    generalize 128 = k
    induction k with
    | zero => exact h
    | succ k ih => exact good_noteOff ih _ _ _ _ _
  | cc d n v => exact good_ccEvent h d n v
  | pitchBend d v =>
    intro t
    cases t with
    | pitch => exact good_insert (h .pitch) d v
    | cc m => exact h (.cc m)
    | channelAftertouch => exact h .channelAftertouch
    | polyAftertouch m => exact h (.polyAftertouch m)
  | chanAftertouch d v =>
    intro t
    cases t with
    | channelAftertouch => exact good_insert (h .channelAftertouch) d v
    | cc m => exact h (.cc m)
    | pitch => exact h .pitch
    | polyAftertouch m => exact h (.polyAftertouch m)
  | polyAftertouch d n v =>
    intro t
    simp only [step, polyAftertouch]
    split
    · exact h t
    · cases t with
      | polyAftertouch m =>
        simp only [vec, upd]
        split
        · exact good_insert (h (.polyAftertouch n.toNat)) d v
        · exact h (.polyAftertouch m)
      | cc m => exact h (.cc m)
      | pitch => exact h .pitch
      | channelAftertouch => exact h .channelAftertouch
  | programChange p =>
    intro t; exact (vec_congr rfl rfl rfl rfl t : vec (programChange s p) t = vec s t) ▸ h t
  | advance n =>
    refine good_flush (s := { s with internalClock := _ }) ?_
    intro t
    rw [vec_congr rfl rfl rfl rfl t]
    exact h t
  | flush => exact good_flush h
  | setSampleRate =>
    intro t; exact (vec_congr rfl rfl rfl rfl t : vec (setSampleRate s) t = vec s t) ▸ h t
  | resetNoteStates =>
    intro t
    simp only [step, resetNoteStates]
    rw [vec_congr rfl rfl rfl rfl t]
    revert t
    repeat apply good_setEvents
    intro t
    rw [vec_congr rfl rfl rfl rfl t]
    exact h t
  | resetEventStates => intro t; cases t <;> exact good_single 0

theorem good_foldl (ops : List Op) : ∀ {s : State}, (∀ t, Good (vec s t)) → ∀ t, Good (vec (ops.foldl step s) t) := by
  induction ops with
  | nil => intro s h; exact h
  | cons op ops ih => intro s h; exact ih (good_step h op)

theorem good_init : ∀ t, Good (vec init t) := by
  refine good_step (s := resetEventStates {}) ?_ .resetNoteStates
  exact good_step (s := {}) (fun t => by cases t <;> exact good_single 0) .resetEventStates

theorem good_run (ops : List Op) : ∀ t, Good (vec (run ops) t) := good_foldl ops good_init

/-- **C08.** Whatever the history, the events stored for a target are in strictly increasing time order, and there is
always at least one. -/
theorem midi_events_sorted (ops : List Op) (t : Target) :
    (vec (run ops) t).Pairwise (fun a b => a.delay < b.delay) ∧ vec (run ops) t ≠ [] := good_run ops t

theorem normalize7Bits_key {n : Int} (h : IsKey n) : normalize7Bits n.toNat = (n : ℚ) / 127 := by
  unfold normalize7Bits
  have h1 : min n.toNat 127 = n.toNat := by omega
  have h2 : ((n.toNat : ℕ) : ℚ) = (n : ℚ) := by
    have : ((n.toNat : ℤ) : ℚ) = (n : ℚ) := by rw [Int.toNat_of_nonneg h.1]
    rw [← this]; rfl
  rw [h1, h2]

theorem vec_noteOn (s : State) (d n : Int) (v u b : ℚ) (hk : IsKey n) (t : Target) :
    ∃ k : ℚ, vec (noteOn s d n v u b) t
    = vec (ccEvent (ccEvent (ccEvent (ccEvent (ccEvent (ccEvent (ccEvent (ccEvent s d ccNoteOnVelocity v)
        d ccKeyboardNoteNumber (normalize7Bits n.toNat)) d ccUnipolarRandom u) d ccBipolarRandom b)
        d ccKeyboardNoteGate (if s.activeNotes > 0 then 1 else 0)) d ccKeydelta k) d ccAbsoluteKeydelta |k|)
        d ccAlternate s.alternate) t := by
  unfold noteOn
  rw [if_pos hk]
  exact ⟨_, by cases t <;> rfl⟩

theorem vec_noteOff (s : State) (d n : Int) (v u b : ℚ) (hk : IsKey n) (t : Target) :
    vec (noteOff s d n v u b) t
    = vec (ccEvent (ccEvent (ccEvent (ccEvent s d ccNoteOffVelocity v)
        d ccKeyboardNoteNumber (normalize7Bits n.toNat)) d ccUnipolarRandom u) d ccBipolarRandom b) t := by
  unfold noteOff
  rw [if_pos hk]
  cases t <;> rfl

/-- A message inserts what it sends, target by target. -/
theorem vec_step_message (s : State) (op : Op) (hm : IsMessage op = true) (t : Target) (ht : Derived t = false) :
    vec (step s op) t = (sentTo t op).foldl (fun l p => insertEvent l p.1 p.2) (vec s t) := by
  cases op with
  | cc d n v =>
    simp only [step, vec_ccEvent, sentTo]
    split <;> simp
  | pitchBend d v => cases t <;> simp [step, sentTo, vec, pitchBend]
  | chanAftertouch d v => cases t <;> simp [step, sentTo, vec, chanAftertouch]
  | polyAftertouch d n v =>
    simp only [step, polyAftertouch, sentTo, IsKey]
    by_cases hn : n < 0 ∨ n ≥ 128
    · rw [if_pos hn, if_neg (by omega)]; rfl
    · rw [if_neg hn]
      have hk : (0 ≤ n ∧ n < 128) := by omega
      cases t with
      | polyAftertouch m =>
        simp only [vec, upd, hk, and_self, true_and, Target.polyAftertouch.injEq]
        split
        · rename_i h; subst h; simp
        · simp
      | _ => simp [vec]
  | programChange p => cases t <;> rfl
  | noteOn d n v u b =>
    simp only [step, sentTo]
    by_cases hk : IsKey n
    · rw [if_pos hk]
      obtain ⟨k, hkd⟩ := vec_noteOn s d n v u b hk t
      rw [hkd]
      simp only [vec_ccEvent]
      rw [normalize7Bits_key hk]
      have n134 : t ≠ .cc 134 := by rintro rfl; simp [Derived] at ht
      have n137 : t ≠ .cc 137 := by rintro rfl; simp [Derived] at ht
      have n140 : t ≠ .cc 140 := by rintro rfl; simp [Derived] at ht
      have n141 : t ≠ .cc 141 := by rintro rfl; simp [Derived] at ht
      simp only [ccAlternate, ccAbsoluteKeydelta, ccKeydelta, ccKeyboardNoteGate, n134, n137, n140, n141, if_false,
        ccBipolarRandom, ccUnipolarRandom, ccKeyboardNoteNumber, ccNoteOnVelocity]
      by_cases h1 : t = .cc 131
      · subst h1; simp
      by_cases h2 : t = .cc 133
      · subst h2; simp
      by_cases h3 : t = .cc 135
      · subst h3; simp
      by_cases h4 : t = .cc 136
      · subst h4; simp
      simp [h1, h2, h3, h4]
    · rw [if_neg hk, noteOn, if_neg hk]; rfl
  | noteOff d n v u b =>
    simp only [step, sentTo]
    by_cases hk : IsKey n
    · rw [if_pos hk, vec_noteOff s d n v u b hk t]
      simp only [vec_ccEvent]
      rw [normalize7Bits_key hk]
      simp only [ccBipolarRandom, ccUnipolarRandom, ccKeyboardNoteNumber, ccNoteOffVelocity]
      by_cases h1 : t = .cc 132
      · subst h1; simp
      by_cases h2 : t = .cc 133
      · subst h2; simp
      by_cases h3 : t = .cc 135
      · subst h3; simp
      by_cases h4 : t = .cc 136
      · subst h4; simp
      simp [h1, h2, h3, h4]
    · rw [if_neg hk, noteOff, if_neg hk]; rfl
  | _ => simp [IsMessage] at hm

theorem lastFor_append_single (d : Int) (l : List (Int × ℚ)) (p : Int × ℚ) :
    lastFor d (l ++ [p]) = if p.1 = d then some p.2 else lastFor d l := by
  unfold lastFor
  rw [List.filter_append]
  by_cases h : p.1 = d
  · simp [h]
  · simp [h]

/-- Contents of a vector after insertions. -/
theorem foldl_insert_mem (l : List (Int × ℚ)) : ∀ (l0 : List (Int × ℚ)) (w : EventVector), Sorted w →
    (∀ d v, (⟨d, v⟩ : Event) ∈ w ↔ lastFor d l0 = some v) →
    ∀ d v, (⟨d, v⟩ : Event) ∈ l.foldl (fun l p => insertEvent l p.1 p.2) w ↔ lastFor d (l0 ++ l) = some v := by
  induction l with
  | nil => intro l0 w _ h; simpa using h
  | cons p l ih =>
    intro l0 w hs h d v
    have key := ih (l0 ++ [p]) (insertEvent w p.1 p.2)
      (by rw [(insertEvent_eq hs _ _).2]; exact ins_sorted hs _ _) (by
        intro d v
        rw [(insertEvent_eq hs _ _).2, mem_ins_iff hs, lastFor_append_single]
        by_cases hd : p.1 = d
        · subst hd; simp [eq_comm]
        · rw [if_neg hd, ← h d v]
          simp [Ne.symm hd])
    have := key d v
    rw [List.append_assoc] at this
    exact this

theorem vec_foldl_message (msgs : List Op) (hm : ∀ op ∈ msgs, IsMessage op = true) (t : Target) (ht : Derived t = false) :
    ∀ s : State, vec (msgs.foldl step s) t
      = (msgs.flatMap (sentTo t)).foldl (fun l p => insertEvent l p.1 p.2) (vec s t) := by
  induction msgs with
  | nil => intro s; rfl
  | cons op msgs ih =>
    intro s
    rw [List.foldl_cons, ih (fun o ho => hm o (by simp [ho])), vec_step_message s op (hm op (by simp)) t ht,
      List.flatMap_cons, List.foldl_append]

theorem vec_advance (s : State) (n : Nat) (t : Target) (h : vec s t ≠ []) :
    ∃ v, current s t = some v ∧ vec (step s (.advance n)) t = [⟨0, v⟩] := by
  obtain ⟨v, h1, _, h2⟩ := flushVector_eq h
  refine ⟨v, h1, ?_⟩
  have : vec (step s (.advance n)) t = flushVector (vec s t) := by cases t <;> rfl
  rw [this, h2]

/-- **C08, contents.** Start a block after any history, then receive any messages in any order: the events stored for a
target hold exactly one value for each time at which something was sent to it (plus the value carried over, at time 0),
namely the last one received for that time. -/
theorem midi_block_events (hist msgs : List Op) (n : Nat) (hm : ∀ op ∈ msgs, IsMessage op = true) (t : Target)
    (ht : Derived t = false) :
    ∃ v0, current (run hist) t = some v0 ∧ ∀ (d : Int) (v : ℚ),
      (⟨d, v⟩ : Event) ∈ vec (run (hist ++ .advance n :: msgs)) t
        ↔ lastFor d ((0, v0) :: msgs.flatMap (sentTo t)) = some v := by
  obtain ⟨v0, h1, h2⟩ := vec_advance (run hist) n t (good_run hist t).2
  refine ⟨v0, h1, ?_⟩
  have e : run (hist ++ .advance n :: msgs) = msgs.foldl step (step (run hist) (.advance n)) := by
    simp [run, List.foldl_append]
  rw [e, vec_foldl_message msgs hm t ht, h2]
  exact foldl_insert_mem _ [(0, v0)] _ (good_single v0).1 (by
    intro d v
    rw [List.mem_singleton]
    by_cases hd : d = 0
    · subst hd; simp [lastFor, eq_comm]
    · simp [lastFor, hd, Ne.symm hd])

/-- Witness: three messages out of order on one controller. -/
example : vec (run [.cc 10 1 5, .cc 3 1 7, .cc 10 1 6]) (.cc 1) = [⟨0, 0⟩, ⟨3, 7⟩, ⟨10, 6⟩] := by decide +kernel

/-- **C09.** At every block boundary, each target is left with one event at time 0, carrying the value it had. -/
theorem midi_block_boundary (hist : List Op) (n : Nat) (t : Target) :
    ∃ v, current (run hist) t = some v ∧ vec (run (hist ++ [.advance n])) t = [⟨0, v⟩] ∧
      current (run (hist ++ [.advance n])) t = some v := by
  obtain ⟨v, h1, h2⟩ := vec_advance (run hist) n t (good_run hist t).2
  have e : run (hist ++ [.advance n]) = step (run hist) (.advance n) := by simp [run, List.foldl_append]
  exact ⟨v, h1, by rw [e, h2], by rw [current, e, h2]; rfl⟩

theorem back_is_latest {l : EventVector} (h : Sorted l) {e : Event} (he : l.getLast? = some e) :
    e ∈ l ∧ ∀ e' ∈ l, e'.delay ≤ e.delay := by
  obtain ⟨pre, rfl⟩ := List.getLast?_eq_some_iff.mp he
  refine ⟨by simp, fun e' h' => ?_⟩
  rcases List.mem_append.mp h' with h' | h'
  · have := (List.pairwise_append.mp h).2.2 e' h' e (by simp)
    omega
  · rw [List.mem_singleton.mp h']

/-- **C09, current value.** The current value of a target is the one received last for the latest time of the block. -/
theorem midi_current_value (hist msgs : List Op) (n : Nat) (hm : ∀ op ∈ msgs, IsMessage op = true) (t : Target)
    (ht : Derived t = false) :
    ∃ v0 d v, current (run hist) t = some v0 ∧ current (run (hist ++ .advance n :: msgs)) t = some v ∧
      lastFor d ((0, v0) :: msgs.flatMap (sentTo t)) = some v ∧
      ∀ p ∈ (0, v0) :: msgs.flatMap (sentTo t), p.1 ≤ d := by
  obtain ⟨v0, h0, hmem⟩ := midi_block_events hist msgs n hm t ht
  have hg := good_run (hist ++ .advance n :: msgs) t
  obtain ⟨e, he⟩ : ∃ e, (vec (run (hist ++ .advance n :: msgs)) t).getLast? = some e := by
    rcases hl : (vec (run (hist ++ .advance n :: msgs)) t).getLast? with _ | e
    · exact absurd (List.getLast?_eq_none_iff.mp hl) hg.2
    · exact ⟨e, rfl⟩
  obtain ⟨h1, h2⟩ := back_is_latest hg.1 he
  refine ⟨v0, e.delay, e.value, h0, by simp [current, backValue, he], (hmem e.delay e.value).mp h1, ?_⟩
  intro p hp
  have hsome : ∃ v, lastFor p.1 ((0, v0) :: msgs.flatMap (sentTo t)) = some v := by
    unfold lastFor
    rcases hl : (((0, v0) :: msgs.flatMap (sentTo t)).filter (fun q => q.1 = p.1)).getLast? with _ | q
    · have := List.getLast?_eq_none_iff.mp hl
      have hin : p ∈ ((0, v0) :: msgs.flatMap (sentTo t)).filter (fun q => q.1 = p.1) := by
        simp [List.mem_filter]; simpa using hp
      rw [this] at hin; simp at hin
    · exact ⟨q.2, by rw [hl]; rfl⟩
  obtain ⟨v, hv⟩ := hsome
  exact h2 _ ((hmem p.1 v).mpr hv)

/-- Witness: a value survives the boundary. -/
example : current (run [.cc 10 1 5, .cc 3 1 7, .advance 64]) (.cc 1) = some 5 := by decide +kernel

/-! ### C10 -/

/-- The value of a target at time `t` of the block: that of the latest event not after `t`. -/
def SignalAt (l : EventVector) (t : Int) (v : ℚ) : Prop :=
  ∃ e ∈ l, e.delay ≤ t ∧ e.value = v ∧ ∀ e' ∈ l, e'.delay ≤ t → e'.delay ≤ e.delay

theorem takeWhile_length_of_sorted {l : EventVector} (h : Sorted l) (t : Int) :
    (∀ i (hi : i < l.length), i < (l.takeWhile (before t)).length → l[i].delay < t) ∧
    (∀ i (hi : i < l.length), (l.takeWhile (before t)).length ≤ i → t ≤ l[i].delay) := by
  induction l with
  | nil => simp
  | cons e l ih =>
    obtain ⟨h1, h2⟩ := List.pairwise_cons.mp h
    obtain ⟨i1, i2⟩ := ih h2
    by_cases he : e.delay < t
    · have hb : before t e = true := by simpa [before] using he
      simp only [List.takeWhile_cons, hb, if_true, List.length_cons]
      constructor
      · intro i hi hlt
        cases i with
        | zero => simpa using he
        | succ i => simpa using i1 i (by omega) (by omega)
      · intro i hi hle
        cases i with
        | zero => omega
        | succ i => simpa using i2 i (by omega) (by omega)
    · have hb : before t e = false := by simpa [before] using he
      simp only [List.takeWhile_cons, hb, Bool.false_eq_true, if_false, List.length_nil]
      constructor
      · intro i hi hlt; omega
      · intro i hi _
        cases i with
        | zero => simp; omega
        | succ i =>
          have := h1 (l[i]'(by simpa using hi)) (by simp)
          simp; omega

/-- What `getCCValueAt` really returns: the value of the first event at or after `t`, or the last value. -/
theorem midi_value_at_is_next (ops : List Op) (n : Nat) (t : Int) :
    ∃ v, getCCValueAt (run ops) n t = some v ∧
      ((∃ e ∈ (run ops).cc n, t ≤ e.delay ∧ e.value = v ∧ ∀ e' ∈ (run ops).cc n, t ≤ e'.delay → e.delay ≤ e'.delay) ∨
       ((∀ e ∈ (run ops).cc n, e.delay < t) ∧ getCCValue (run ops) n = some v)) := by
  obtain ⟨hs, hne⟩ := good_run ops (.cc n)
  have hs : Sorted ((run ops).cc n) := hs
  have hne : (run ops).cc n ≠ [] := hne
  unfold getCCValueAt valueAt getCCValue
  rw [lowerBound_sorted hs]
  generalize (run ops).cc n = l at *
  obtain ⟨k1, k2⟩ := takeWhile_length_of_sorted hs t
  simp only
  rcases Nat.lt_or_ge (l.takeWhile (before t)).length l.length with hlt | hge
  · rw [List.getElem?_eq_getElem hlt]
    refine ⟨_, rfl, Or.inl ⟨_, List.getElem_mem hlt, k2 _ hlt (Nat.le_refl _), rfl, ?_⟩⟩
    intro e' he' hle
    obtain ⟨i, hi, rfl⟩ := List.mem_iff_getElem.mp he'
    rcases Nat.lt_trichotomy i (l.takeWhile (before t)).length with h | h | h
    · have := k1 i hi h; omega
    · subst h; exact Int.le_refl _
    · exact Int.le_of_lt (List.pairwise_iff_getElem.mp hs _ _ hlt hi h)
  · rw [List.getElem?_eq_none hge]
    obtain ⟨v, hv, _⟩ := flushVector_eq hne
    simp only
    refine ⟨v, hv, Or.inr ⟨?_, hv⟩⟩
    intro e he
    obtain ⟨i, hi, rfl⟩ := List.mem_iff_getElem.mp he
    exact k1 i hi (by omega)

/-- **C10 (partial).** The value read at frame `t` is that of the latest event not after `t`, provided some event happens
exactly at `t`, or none after `t`. Missing: frames strictly between two events (`midi_value_at_violated`). -/
theorem midi_value_at_partial (ops : List Op) (n : Nat) (t : Int)
    (h : (∃ e ∈ (run ops).cc n, e.delay = t) ∨ ∀ e ∈ (run ops).cc n, e.delay ≤ t) :
    ∃ v, getCCValueAt (run ops) n t = some v ∧ SignalAt ((run ops).cc n) t v := by
  obtain ⟨v, h1, h2⟩ := midi_value_at_is_next ops n t
  refine ⟨v, h1, ?_⟩
  have hs : Sorted ((run ops).cc n) := (good_run ops (.cc n)).1
  rcases h2 with ⟨e, he, hle, hv, hmin⟩ | ⟨hall, hv⟩
  · rcases h with ⟨e', he', ht⟩ | hall
    · have := hmin e' he' (by omega)
      exact ⟨e, he, by omega, hv, fun e'' _ h'' => by omega⟩
    · have := hall e he
      exact ⟨e, he, this, hv, fun e'' _ h'' => by omega⟩
  · unfold getCCValue backValue at hv
    rcases hl : ((run ops).cc n).getLast? with _ | e
    · rw [hl] at hv; simp at hv
    · rw [hl] at hv
      obtain ⟨k1, k2⟩ := back_is_latest hs hl
      exact ⟨e, k1, by have := hall e k1; omega, by simpa using hv, fun e' h' _ => k2 e' h'⟩

/-- **C10 violated.** A controller at 0 that receives 1 at frame 10 already reads 1 at frame 5. -/
theorem midi_value_at_violated :
    getCCValueAt (run [.cc 10 1 1]) 1 5 = some 1 ∧ SignalAt ((run [.cc 10 1 1]).cc 1) 5 0 := by
  refine ⟨by decide +kernel, ⟨0, 0⟩, by decide +kernel, by decide, rfl, ?_⟩
  have : (run [.cc 10 1 1]).cc 1 = [⟨0, 0⟩, ⟨10, 1⟩] := by decide +kernel
  rw [this]
  intro e' he' hle
  simp only [List.mem_cons, List.not_mem_nil, or_false] at he'
  rcases he' with rfl | rfl
  · exact Int.le_refl _
  · simp at hle

/-- Witness: the hypothesis of the partial theorem. -/
example : ∃ e ∈ (run [.cc 10 1 1]).cc 1, e.delay = 10 := ⟨⟨10, 1⟩, by decide +kernel, rfl⟩

end Verif.Midi
