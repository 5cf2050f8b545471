import Verif.Midi.Props

/-! With delays that are not negative, the first event of every stored vector is at the start of the block. -/
namespace Verif.Midi

/-- Increasing times, the first one being 0. -/
def Starts (l : EventVector) : Prop := Sorted l ∧ ∃ v t, l = ⟨0, v⟩ :: t

theorem starts_single (v : ℚ) : Starts [⟨0, v⟩] := ⟨by simp [Sorted], v, [], rfl⟩

theorem starts_insert {l : EventVector} (h : Starts l) {d : Int} (hd : 0 ≤ d) (v : ℚ) : Starts (insertEvent l d v) := by
  have hs := ins_sorted h.1 d v
  rw [(insertEvent_eq h.1 d v).2]
  refine ⟨hs, ?_⟩
  obtain ⟨w, t, rfl⟩ := h.2
  by_cases h0 : d = 0
  · have : (⟨0, v⟩ : Event) ∈ ins d v (⟨0, w⟩ :: t) := (mem_ins_iff h.1 d v ⟨0, v⟩).mpr (Or.inl (by rw [h0]))
    cases hi : ins d v (⟨0, w⟩ :: t) with
    | nil => rw [hi] at this; simp at this
    | cons a r =>
      rw [hi] at this hs
      rcases List.mem_cons.mp this with h1 | h1
      · exact ⟨v, r, by rw [← h1]⟩
      · have h2 := (List.pairwise_cons.mp hs).1 _ h1
        have h3 : a ∈ ins d v (⟨0, w⟩ :: t) := by rw [hi]; simp
        rcases ins_mem h3 with rfl | h4
        · dsimp only at h2; omega
        · rcases List.mem_cons.mp h4 with rfl | h4
          · dsimp only at h2; omega
          · have := (List.pairwise_cons.mp h.1).1 _ h4
            dsimp only at this h2; omega
  · have : (⟨0, w⟩ : Event) ∈ ins d v (⟨0, w⟩ :: t) := (mem_ins_iff h.1 d v ⟨0, w⟩).mpr (Or.inr ⟨fun hh => h0 hh.symm, by simp⟩)
    cases hi : ins d v (⟨0, w⟩ :: t) with
    | nil => rw [hi] at this; simp at this
    | cons a r =>
      rw [hi] at this hs
      rcases List.mem_cons.mp this with h1 | h1
      · exact ⟨w, r, by rw [← h1]⟩
      · have h2 := (List.pairwise_cons.mp hs).1 _ h1
        have h3 : a ∈ ins d v (⟨0, w⟩ :: t) := by rw [hi]; simp
        rcases ins_mem h3 with rfl | h4
        · dsimp only at h2; omega
        · rcases List.mem_cons.mp h4 with rfl | h4
          · dsimp only at h2; omega
          · have := (List.pairwise_cons.mp h.1).1 _ h4
            dsimp only at this h2; omega

theorem starts_ccEvent {s : State} (h : ∀ t, Starts (vec s t)) {d : Int} (hd : 0 ≤ d) (n : Nat) (v : ℚ) :
    ∀ t, Starts (vec (ccEvent s d n v) t) := by
  intro t
  rw [vec_ccEvent]
  split
  · exact starts_insert (h t) hd v
  · exact h t

theorem starts_noteOn {s : State} (h : ∀ t, Starts (vec s t)) {d : Int} (hd : 0 ≤ d) (n : Int) (v u b : ℚ) :
    ∀ t, Starts (vec (noteOn s d n v u b) t) := by
  unfold noteOn
  split
  · intro t
    simp only
    rw [vec_congr rfl rfl rfl rfl t]
    revert t
    refine starts_ccEvent ?_ hd _ _
    intro t
    rw [vec_congr rfl rfl rfl rfl t]
    revert t
    repeat refine starts_ccEvent ?_ hd _ _
    intro t
    rw [vec_congr rfl rfl rfl rfl t]
    exact h t
  · exact h

theorem starts_noteOff {s : State} (h : ∀ t, Starts (vec s t)) {d : Int} (hd : 0 ≤ d) (n : Int) (v u b : ℚ) :
    ∀ t, Starts (vec (noteOff s d n v u b) t) := by
  unfold noteOff
  split
  · intro t
    simp only
    rw [vec_congr rfl rfl rfl rfl t]
    revert t
    intro t
    rw [vec_congr rfl rfl rfl rfl t]
    revert t
    repeat refine starts_ccEvent ?_ hd _ _
    intro t
    rw [vec_congr rfl rfl rfl rfl t]
    exact h t
  · exact h

theorem starts_setEvents {s : State} (h : ∀ t, Starts (vec s t)) (n : Nat) (v : ℚ) :
    ∀ t, Starts (vec (setEvents s n v) t) := by
  intro t
  cases t with
  | cc m =>
    simp only [vec, setEvents, upd]
    split
    · exact starts_single v
    · exact h (.cc m)
  | pitch => exact h .pitch
  | channelAftertouch => exact h .channelAftertouch
  | polyAftertouch m => exact h (.polyAftertouch m)

theorem starts_flush {s : State} (h : ∀ t, Starts (vec s t)) : ∀ t, Starts (vec (flushEvents s) t) := by
  intro t
  have : vec (flushEvents s) t = flushVector (vec s t) := by cases t <;> rfl
  rw [this]
  obtain ⟨w, l, hl⟩ := (h t).2
  obtain ⟨v, _, _, hv⟩ := flushVector_eq (l := vec s t) (by rw [hl]; simp)
  rw [hv]; exact starts_single v

/-- The delay of a call, if it has one. -/
def Op.delay : Op → Int
  | .noteOn d _ _ _ _ => d
  | .noteOff d _ _ _ _ => d
  | .allNotesOff d _ => d
  | .cc d _ _ => d
  | .pitchBend d _ => d
  | .chanAftertouch d _ => d
  | .polyAftertouch d _ _ => d
  | _ => 0

theorem starts_step {s : State} (h : ∀ t, Starts (vec s t)) (op : Op) (hop : 0 ≤ op.delay) : ∀ t, Starts (vec (step s op) t) := by
  cases op with
  | noteOn d n v u b => exact starts_noteOn h hop n v u b
  | noteOff d n v u b => exact starts_noteOff h hop n v u b
  | allNotesOff d rnd =>
    show ∀ t, Starts (vec (allNotesOffLoop s d rnd 128) t)
    generalize 128 = k
    induction k with
    | zero => exact h
    | succ k ih => exact starts_noteOff ih hop _ _ _ _
  | cc d n v => exact starts_ccEvent h hop n v
  | pitchBend d v =>
    intro t
    cases t with
    | pitch => exact starts_insert (h .pitch) hop v
    | cc m => exact h (.cc m)
    | channelAftertouch => exact h .channelAftertouch
    | polyAftertouch m => exact h (.polyAftertouch m)
  | chanAftertouch d v =>
    intro t
    cases t with
    | channelAftertouch => exact starts_insert (h .channelAftertouch) hop v
    | cc m => exact h (.cc m)
    | pitch => exact h .pitch
    | polyAftertouch m => exact h (.polyAftertouch m)
  | polyAftertouch d n v =>
    intro t
    simp only [step, polyAftertouch]
    split
    · exact h t
    · cases t with
      | polyAftertouch m =>
        simp only [vec, upd]
        split
        · exact starts_insert (h (.polyAftertouch n.toNat)) hop v
        · exact h (.polyAftertouch m)
      | cc m => exact h (.cc m)
      | pitch => exact h .pitch
      | channelAftertouch => exact h .channelAftertouch
  | programChange p =>
    intro t; exact (vec_congr rfl rfl rfl rfl t : vec (programChange s p) t = vec s t) ▸ h t
  | advance n =>
    refine starts_flush (s := { s with internalClock := _ }) ?_
    intro t
    rw [vec_congr rfl rfl rfl rfl t]
    exact h t
  | flush => exact starts_flush h
  | setSampleRate =>
    intro t; exact (vec_congr rfl rfl rfl rfl t : vec (setSampleRate s) t = vec s t) ▸ h t
  | resetNoteStates =>
    intro t
    simp only [step, resetNoteStates]
    rw [vec_congr rfl rfl rfl rfl t]
    revert t
    repeat apply starts_setEvents
    intro t
    rw [vec_congr rfl rfl rfl rfl t]
    exact h t
  | resetEventStates => intro t; cases t <;> exact starts_single 0

theorem starts_foldl (ops : List Op) (hop : ∀ op ∈ ops, 0 ≤ op.delay) :
    ∀ {s : State}, (∀ t, Starts (vec s t)) → ∀ t, Starts (vec (ops.foldl step s) t) := by
  induction ops with
  | nil => intro s h; exact h
  | cons op ops ih =>
    intro s h
    exact ih (fun o ho => hop o (by simp [ho])) (starts_step h op (hop op (by simp)))

theorem starts_run (ops : List Op) (hop : ∀ op ∈ ops, 0 ≤ op.delay) : ∀ t, Starts (vec (run ops) t) := by
  refine starts_foldl ops hop ?_
  refine starts_step (s := resetEventStates {}) ?_ .resetNoteStates (le_refl _)
  exact starts_step (s := {}) (fun t => by cases t <;> exact starts_single 0) .resetEventStates (le_refl _)

end Verif.Midi
