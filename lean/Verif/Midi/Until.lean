import Verif.Midi.Starts

/-! When messages arrive in order, no stored event is later than the latest message. -/
namespace Verif.Midi

/-- Increasing times up to `D`, one event at least. -/
def Until (D : Int) (l : EventVector) : Prop := Good l ∧ ∀ e ∈ l, e.delay ≤ D

theorem until_single {D : Int} (hD : 0 ≤ D) (v : ℚ) : Until D [⟨0, v⟩] := ⟨good_single v, by simp [hD]⟩

theorem until_insert {D : Int} {l : EventVector} (h : Until D l) {d : Int} (hd : d ≤ D) (v : ℚ) : Until D (insertEvent l d v) := by
  refine ⟨good_insert h.1 d v, fun e he => ?_⟩
  rw [(insertEvent_eq h.1.1 d v).2] at he
  rcases ins_mem he with rfl | he
  · exact hd
  · exact h.2 e he

theorem until_ccEvent {D : Int} (hD : 0 ≤ D) {s : State} (h : ∀ t, Until D (vec s t)) {d : Int} (hd : d ≤ D) (n : Nat) (v : ℚ) :
    ∀ t, Until D (vec (ccEvent s d n v) t) := by
  intro t
  rw [vec_ccEvent]
  split
  · exact until_insert (h t) hd v
  · exact h t

theorem until_noteOn {D : Int} (hD : 0 ≤ D) {s : State} (h : ∀ t, Until D (vec s t)) {d : Int} (hd : d ≤ D) (n : Int) (v u b : ℚ) :
    ∀ t, Until D (vec (noteOn s d n v u b) t) := by
  unfold noteOn
  split
  · intro t
    simp only
    rw [vec_congr rfl rfl rfl rfl t]
    revert t
    refine until_ccEvent hD ?_ hd _ _
    intro t
    rw [vec_congr rfl rfl rfl rfl t]
    revert t
    repeat refine until_ccEvent hD ?_ hd _ _
    intro t
    rw [vec_congr rfl rfl rfl rfl t]
    exact h t
  · exact h

theorem until_noteOff {D : Int} (hD : 0 ≤ D) {s : State} (h : ∀ t, Until D (vec s t)) {d : Int} (hd : d ≤ D) (n : Int) (v u b : ℚ) :
    ∀ t, Until D (vec (noteOff s d n v u b) t) := by
  unfold noteOff
  split
  · intro t
    simp only
    rw [vec_congr rfl rfl rfl rfl t]
    revert t
    intro t
    rw [vec_congr rfl rfl rfl rfl t]
    revert t
    repeat refine until_ccEvent hD ?_ hd _ _
    intro t
    rw [vec_congr rfl rfl rfl rfl t]
    exact h t
  · exact h

theorem until_setEvents {D : Int} (hD : 0 ≤ D) {s : State} (h : ∀ t, Until D (vec s t)) (n : Nat) (v : ℚ) :
    ∀ t, Until D (vec (setEvents s n v) t) := by
  intro t
  cases t with
  | cc m =>
    simp only [vec, setEvents, upd]
    split
    · exact until_single hD v
    · exact h (.cc m)
  | pitch => exact h .pitch
  | channelAftertouch => exact h .channelAftertouch
  | polyAftertouch m => exact h (.polyAftertouch m)

theorem until_flush {D : Int} (hD : 0 ≤ D) {s : State} (h : ∀ t, vec s t ≠ []) : ∀ t, Until D (vec (flushEvents s) t) := by
  intro t
  have : vec (flushEvents s) t = flushVector (vec s t) := by cases t <;> rfl
  rw [this]
  obtain ⟨v, _, _, hv⟩ := flushVector_eq (h t)
  rw [hv]; exact until_single hD v

theorem until_step {D : Int} (hD : 0 ≤ D) {s : State} (h : ∀ t, Until D (vec s t)) (op : Op) (hop : op.delay ≤ D) : ∀ t, Until D (vec (step s op) t) := by
  cases op with
  | noteOn d n v u b => exact until_noteOn hD h hop n v u b
  | noteOff d n v u b => exact until_noteOff hD h hop n v u b
  | allNotesOff d rnd =>
    show ∀ t, Until D (vec (allNotesOffLoop s d rnd 128) t)
    generalize 128 = k
    induction k with
    | zero => exact h
    | succ k ih => exact until_noteOff hD ih hop _ _ _ _
  | cc d n v => exact until_ccEvent hD h hop n v
  | pitchBend d v =>
    intro t
    cases t with
    | pitch => exact until_insert (h .pitch) hop v
    | cc m => exact h (.cc m)
    | channelAftertouch => exact h .channelAftertouch
    | polyAftertouch m => exact h (.polyAftertouch m)
  | chanAftertouch d v =>
    intro t
    cases t with
    | channelAftertouch => exact until_insert (h .channelAftertouch) hop v
    | cc m => exact h (.cc m)
    | pitch => exact h .pitch
    | polyAftertouch m => exact h (.polyAftertouch m)
  | polyAftertouch d n v =>
    intro t
    simp only [step, polyAftertouch]
    split
    · exact h t
    · cases t with
      | polyAftertouch m =>
        simp only [vec, upd]
        split
        · exact until_insert (h (.polyAftertouch n.toNat)) hop v
        · exact h (.polyAftertouch m)
      | cc m => exact h (.cc m)
      | pitch => exact h .pitch
      | channelAftertouch => exact h .channelAftertouch
  | programChange p =>
    intro t; exact (vec_congr rfl rfl rfl rfl t : vec (programChange s p) t = vec s t) ▸ h t
  | advance n =>
    refine until_flush hD (s := { s with internalClock := _ }) ?_
    intro t
    rw [vec_congr rfl rfl rfl rfl t]
    exact (h t).1.2
  | flush => exact until_flush hD (fun t => (h t).1.2)
  | setSampleRate =>
    intro t; exact (vec_congr rfl rfl rfl rfl t : vec (setSampleRate s) t = vec s t) ▸ h t
  | resetNoteStates =>
    intro t
    simp only [step, resetNoteStates]
    rw [vec_congr rfl rfl rfl rfl t]
    revert t
    repeat apply until_setEvents hD
    intro t
    rw [vec_congr rfl rfl rfl rfl t]
    exact h t
  | resetEventStates => intro t; cases t <;> exact until_single hD 0

theorem until_foldl {D : Int} (hD : 0 ≤ D) (ops : List Op) (hop : ∀ op ∈ ops, op.delay ≤ D) :
    ∀ {s : State}, (∀ t, Until D (vec s t)) → ∀ t, Until D (vec (ops.foldl step s) t) := by
  induction ops with
  | nil => intro s h; exact h
  | cons op ops ih =>
    intro s h
    exact ih (fun o ho => hop o (by simp [ho])) (until_step hD h op (hop op (by simp)))

/-- After a block has been rendered, with later messages up to frame `D`. -/
theorem until_run {D : Int} (hD : 0 ≤ D) (pre : List Op) (len : Nat) (new : List Op) (hop : ∀ op ∈ new, op.delay ≤ D) :
    ∀ t, Until D (vec (run (pre ++ .advance len :: new)) t) := by
  have e : run (pre ++ .advance len :: new) = new.foldl step (advanceTime (run pre) len) := by
    unfold run; rw [List.foldl_append, List.foldl_cons]; rfl
  rw [e]
  refine until_foldl hD new hop ?_
  refine until_flush hD (s := { run pre with internalClock := _ }) ?_
  intro t
  rw [vec_congr rfl rfl rfl rfl t]
  exact (good_run pre t).2

end Verif.Midi
