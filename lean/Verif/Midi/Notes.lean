import Verif.Midi.Props
import Mathlib.Data.List.Induction

/-! Held notes (C11), note durations (C54), controllers derived from the notes (C55). -/
namespace Verif.Midi

/-- What a call says about key `k`: pressed, released, or nothing. -/
def keyEffect (k : Nat) : Op → Option Bool
  | .noteOn _ n .. => if n = k then some true else none
  | .noteOff _ n .. => if n = k then some false else none
  | .allNotesOff .. => some false
  | .resetNoteStates => some false
  | _ => none

/-- The key is down: the last call about it was a note-on. -/
def held (ops : List Op) (k : Nat) : Bool := ((ops.filterMap (keyEffect k)).getLast?).getD false

/-- The keys that are down. -/
def heldCount (ops : List Op) : Nat := ((List.range 128).filter (held ops)).length

/-- No key is pressed while down or released while up. -/
def Balanced (ops : List Op) : Prop :=
  ∀ pre op post, ops = pre ++ op :: post →
    match op with
    | .noteOn _ n .. => IsKey n → held pre n.toNat = false
    | .noteOff _ n .. => IsKey n → held pre n.toNat = true
    | _ => True

theorem held_snoc (ops : List Op) (op : Op) (k : Nat) :
    held (ops ++ [op]) k = (keyEffect k op).getD (held ops k) := by
  unfold held
  rw [List.filterMap_append]
  cases h : keyEffect k op <;> simp [h]

theorem run_snoc (ops : List Op) (op : Op) : run (ops ++ [op]) = step (run ops) op := by
  simp [run, List.foldl_append]

theorem allNotesOffLoop_notes (s : State) (d : Int) (rnd : Nat → ℚ × ℚ) (k : Nat) (hk : k ≤ 128) :
    (∀ j, (allNotesOffLoop s d rnd k).noteStates j = if j < k then false else s.noteStates j) ∧
    (allNotesOffLoop s d rnd k).activeNotes = s.activeNotes - k := by
  induction k with
  | zero => exact ⟨fun j => by simp [allNotesOffLoop], rfl⟩
  | succ k ih =>
    obtain ⟨h1, h2⟩ := ih (by omega)
    have hkey : IsKey (k : Int) := by unfold IsKey; omega
    constructor
    · intro j
      simp only [allNotesOffLoop, noteOff]
      rw [if_pos hkey]
      simp only [upd, Int.toNat_natCast]
      by_cases hj : j = k
      · simp [hj]
      · simp only [if_neg hj]
        show (allNotesOffLoop s d rnd k).noteStates j = _
        rw [h1 j]
        by_cases hlt : j < k
        · rw [if_pos hlt, if_pos (by omega)]
        · rw [if_neg hlt, if_neg (by omega)]
    · simp only [allNotesOffLoop, noteOff]
      rw [if_pos hkey]
      show (if (allNotesOffLoop s d rnd k).activeNotes > 0 then (allNotesOffLoop s d rnd k).activeNotes - 1
        else (allNotesOffLoop s d rnd k).activeNotes) = _
      rw [h2]
      split <;> omega

theorem noteOn_states {s : State} {d n : Int} {v u b : ℚ} (hk : IsKey n) :
    (noteOn s d n v u b).noteStates = upd s.noteStates n.toNat true ∧
    (noteOn s d n v u b).activeNotes = s.activeNotes + 1 := by
  unfold noteOn; rw [if_pos hk]; exact ⟨rfl, rfl⟩

theorem noteOff_states {s : State} {d n : Int} {v u b : ℚ} (hk : IsKey n) :
    (noteOff s d n v u b).noteStates = upd s.noteStates n.toNat false ∧
    (noteOff s d n v u b).activeNotes = s.activeNotes - 1 := by
  unfold noteOff; rw [if_pos hk]
  refine ⟨rfl, ?_⟩
  show (if s.activeNotes > 0 then s.activeNotes - 1 else s.activeNotes) = _
  split <;> omega

/-- **C11, pressed keys.** After any history a key is reported pressed iff the last call about it was a note-on. -/
theorem midi_pressed (ops : List Op) (k : Nat) (hk : k < 128) : (run ops).noteStates k = held ops k := by
  induction ops using List.reverseRecOn with
  | nil => rfl
  | append_singleton ops op ih =>
    rw [run_snoc, held_snoc, ← ih]
    cases op with
    | noteOn d n v u b =>
      simp only [step, keyEffect]
      by_cases hn : IsKey n
      · rw [(noteOn_states hn).1]
        unfold upd
        obtain ⟨h0, h1⟩ := hn
        by_cases hc : n = k
        · simp [hc]
        · rw [if_neg hc, if_neg (by omega)]; rfl
      · rw [noteOn, if_neg hn, if_neg (by rintro rfl; exact hn ⟨by omega, by omega⟩)]; rfl
    | noteOff d n v u b =>
      simp only [step, keyEffect]
      by_cases hn : IsKey n
      · rw [(noteOff_states hn).1]
        unfold upd
        obtain ⟨h0, h1⟩ := hn
        by_cases hc : n = k
        · simp [hc]
        · rw [if_neg hc, if_neg (by omega)]; rfl
      · rw [noteOff, if_neg hn, if_neg (by rintro rfl; exact hn ⟨by omega, by omega⟩)]; rfl
    | allNotesOff d rnd =>
      simp only [step, keyEffect, allNotesOff, Option.getD_some]
      rw [(allNotesOffLoop_notes _ _ _ 128 (Nat.le_refl _)).1 k, if_pos hk]
    | polyAftertouch d n v =>
      simp only [step, polyAftertouch, keyEffect, Option.getD_none]
      split <;> rfl
    | _ => rfl

theorem count_upd {l : List Nat} (hnd : l.Nodup) {f g : Nat → Bool} {n : Nat} (hn : n ∈ l)
    (hf : f n = false) (hg : g n = true) (ho : ∀ j, j ≠ n → f j = g j) :
    (l.filter g).length = (l.filter f).length + 1 := by
  induction l with
  | nil => simp at hn
  | cons a t ih =>
    obtain ⟨hat, hnd'⟩ := List.nodup_cons.mp hnd
    by_cases ha : a = n
    · subst ha
      have : t.filter g = t.filter f := by
        apply List.filter_congr
        intro x hx
        rw [ho x (by rintro rfl; exact hat hx)]
      simp [hf, hg, this]
    · have := ih hnd' (by simpa [Ne.symm ha] using hn)
      have e := ho a ha
      by_cases hga : g a = true
      · simp [e, hga, this]
      · simp [e, hga, this]

/-- **C11, counting (partial).** After any history in which no key is pressed while down or released while up, the number of
active notes is the number of keys down. Missing: histories with repeated or stray messages (`midi_active_violated`). -/
theorem midi_active_partial (ops : List Op) (hb : Balanced ops) : (run ops).activeNotes = heldCount ops := by
  induction ops using List.reverseRecOn with
  | nil => decide +kernel
  | append_singleton ops op ih =>
    have hb' : Balanced ops := by
      intro pre o post h
      exact hb pre o (post ++ [op]) (by rw [h]; simp)
    have hop := hb ops op [] rfl
    have IH := ih hb'
    rw [run_snoc]
    have hnd : (List.range 128).Nodup := List.nodup_range
    cases op with
    | noteOn d n v u b =>
      simp only at hop
      by_cases hn : IsKey n
      · simp only [step]
        rw [(noteOn_states hn).2, IH]
        unfold heldCount
        refine (count_upd hnd (n := n.toNat) (by simp; have := hn.1; have := hn.2; omega) (hop hn) ?_ ?_).symm
        · rw [held_snoc]; simp [keyEffect, hn.1]
        · intro j hj
          rw [held_snoc, keyEffect, if_neg (by have := hn.1; omega)]; rfl
      · have e : ∀ j, j ∈ List.range 128 → held (ops ++ [.noteOn d n v u b]) j = held ops j := by
          intro j hj
          rw [held_snoc, keyEffect, if_neg (by
            rintro rfl; exact hn ⟨by omega, by simp at hj; omega⟩)]; rfl
        simp only [step, noteOn, if_neg hn, IH, heldCount]
        rw [List.filter_congr e]
    | noteOff d n v u b =>
      simp only at hop
      by_cases hn : IsKey n
      · simp only [step]
        rw [(noteOff_states hn).2, IH]
        unfold heldCount
        have := count_upd hnd (n := n.toNat) (f := held (ops ++ [.noteOff d n v u b])) (g := held ops)
          (by simp; have := hn.1; have := hn.2; omega) (by rw [held_snoc]; simp [keyEffect, hn.1]) (hop hn) (by
            intro j hj
            rw [held_snoc, keyEffect, if_neg (by have := hn.1; omega)]; rfl)
        omega
      · have e : ∀ j, j ∈ List.range 128 → held (ops ++ [.noteOff d n v u b]) j = held ops j := by
          intro j hj
          rw [held_snoc, keyEffect, if_neg (by
            rintro rfl; exact hn ⟨by omega, by simp at hj; omega⟩)]; rfl
        simp only [step, noteOff, if_neg hn, IH, heldCount]
        rw [List.filter_congr e]
    | allNotesOff d rnd =>
      simp only [step, allNotesOff]
      rw [(allNotesOffLoop_notes _ _ _ 128 (Nat.le_refl _)).2, IH]
      have h1 : heldCount ops ≤ 128 := by
        unfold heldCount
        have := List.length_filter_le (held ops) (List.range 128)
        simpa using this
      have h2 : heldCount (ops ++ [.allNotesOff d rnd]) = 0 := by
        unfold heldCount
        rw [List.length_eq_zero_iff, List.filter_eq_nil_iff]
        intro j _
        rw [held_snoc]; simp [keyEffect]
      omega
    | resetNoteStates =>
      have h2 : heldCount (ops ++ [.resetNoteStates]) = 0 := by
        unfold heldCount
        rw [List.length_eq_zero_iff, List.filter_eq_nil_iff]
        intro j _
        rw [held_snoc]; simp [keyEffect]
      rw [h2]; rfl
    | polyAftertouch d n v =>
      have e : held (ops ++ [.polyAftertouch d n v]) = held ops := by
        funext j; rw [held_snoc]; rfl
      have e2 : (step (run ops) (.polyAftertouch d n v)).activeNotes = (run ops).activeNotes := by
        simp only [step, polyAftertouch]; split <;> rfl
      rw [e2, IH, heldCount, heldCount, e]
    | cc d n v =>
      have e : held (ops ++ [.cc d n v]) = held ops := by funext j; rw [held_snoc]; rfl
      rw [heldCount, e]; exact IH
    | pitchBend d v =>
      have e : held (ops ++ [.pitchBend d v]) = held ops := by funext j; rw [held_snoc]; rfl
      rw [heldCount, e]; exact IH
    | chanAftertouch d v =>
      have e : held (ops ++ [.chanAftertouch d v]) = held ops := by funext j; rw [held_snoc]; rfl
      rw [heldCount, e]; exact IH
    | programChange p =>
      have e : held (ops ++ [.programChange p]) = held ops := by funext j; rw [held_snoc]; rfl
      rw [heldCount, e]; exact IH
    | advance n =>
      have e : held (ops ++ [.advance n]) = held ops := by funext j; rw [held_snoc]; rfl
      rw [heldCount, e]; exact IH
    | flush =>
      have e : held (ops ++ [.flush]) = held ops := by funext j; rw [held_snoc]; rfl
      rw [heldCount, e]; exact IH
    | setSampleRate =>
      have e : held (ops ++ [.setSampleRate]) = held ops := by funext j; rw [held_snoc]; rfl
      rw [heldCount, e]; exact IH
    | resetEventStates =>
      have e : held (ops ++ [.resetEventStates]) = held ops := by funext j; rw [held_snoc]; rfl
      rw [heldCount, e]; exact IH

/-- Witness: a balanced history with two keys down. -/
example : heldCount [.noteOn 0 60 1 0 0, .noteOn 0 64 1 0 0, .noteOff 0 60 0 0 0, .noteOn 5 67 1 0 0] = 2 := by
  decide +kernel

/-- Witness: such a history is balanced. -/
example : Balanced [.noteOn 0 60 1 0 0, .noteOff 0 60 0 0 0] := by
  intro pre op post h
  match pre, h with
  | [], h =>
    simp only [List.nil_append, List.cons.injEq] at h
    obtain ⟨rfl, _⟩ := h
    intro _; decide +kernel
  | [a], h =>
    simp only [List.cons_append, List.nil_append, List.cons.injEq] at h
    obtain ⟨rfl, rfl, _⟩ := h
    intro _; decide +kernel
  | a :: b :: pre, h =>
    simp only [List.cons_append, List.cons.injEq] at h
    have := congrArg List.length h.2.2
    simp at this

/-- **C11 violated.** Pressing a key twice (two controllers merged on one channel, say) and releasing it once leaves an
active note although no key is down; a stray note-off makes the engine forget a key that is down. -/
theorem midi_active_violated :
    ((run [.noteOn 0 60 1 0 0, .noteOn 0 60 1 0 0, .noteOff 0 60 0 0 0]).activeNotes = 1 ∧
      heldCount [.noteOn 0 60 1 0 0, .noteOn 0 60 1 0 0, .noteOff 0 60 0 0 0] = 0) ∧
    ((run [.noteOn 0 60 1 0 0, .noteOff 0 61 0 0 0]).activeNotes = 0 ∧
      heldCount [.noteOn 0 60 1 0 0, .noteOff 0 61 0 0 0] = 1) := by
  decide +kernel

/-! ### C54: note durations -/

/-- Samples elapsed over a history. -/
def elapsed (ops : List Op) : Nat :=
  (ops.map fun op => match op with | .advance n => n | _ => 0).sum

/-- The call neither restarts the clock nor presses the key again. -/
def KeepsTime (k : Nat) : Op → Prop
  | .noteOn _ n .. => n ≠ k
  | .setSampleRate | .resetNoteStates => False
  | _ => True

theorem keepsTime_step {k : Nat} {op : Op} (h : KeepsTime k op) (s : State) :
    (step s op).noteOnTimes k = s.noteOnTimes k ∧
    (step s op).internalClock % 2 ^ 32 = (s.internalClock + elapsed [op]) % 2 ^ 32 := by
  cases op with
  | noteOn d n v u b =>
    simp only [step, noteOn, elapsed]
    split
    · rename_i hn
      refine ⟨?_, by simp [ccEvent]⟩
      show upd s.noteOnTimes n.toNat _ k = _
      unfold upd
      rw [if_neg]
      have := hn.1
      simp only [KeepsTime] at h
      omega
    · exact ⟨rfl, by simp⟩
  | noteOff d n v u b =>
    simp only [step, noteOff, elapsed]
    split
    · exact ⟨rfl, by simp [ccEvent]⟩
    · exact ⟨rfl, by simp⟩
  | allNotesOff d rnd =>
    simp only [step, allNotesOff, elapsed]
    generalize 128 = m
    induction m with
    | zero => exact ⟨rfl, by simp [allNotesOffLoop]⟩
    | succ m ih =>
      simp only [allNotesOffLoop, noteOff]
      split
      · exact ih
      · exact ih
  | polyAftertouch d n v =>
    simp only [step, polyAftertouch, elapsed]
    split
    · exact ⟨rfl, by simp⟩
    · exact ⟨rfl, by simp⟩
  | advance n => exact ⟨rfl, by simp [step, advanceTime, flushEvents, elapsed]⟩
  | setSampleRate => exact absurd h (by simp [KeepsTime])
  | resetNoteStates => exact absurd h (by simp [KeepsTime])
  | _ => exact ⟨rfl, by simp [step, elapsed, ccEvent, pitchBend, chanAftertouch, programChange, flushEvents, resetEventStates]⟩

theorem keepsTime_foldl {k : Nat} {ops : List Op} : ∀ (s : State), (∀ op ∈ ops, KeepsTime k op) →
    (ops.foldl step s).noteOnTimes k = s.noteOnTimes k ∧
    (ops.foldl step s).internalClock % 2 ^ 32 = (s.internalClock + elapsed ops) % 2 ^ 32 := by
  induction ops with
  | nil => intro s _; exact ⟨rfl, by simp [elapsed]⟩
  | cons op ops ih =>
    intro s h
    obtain ⟨h1, h2⟩ := keepsTime_step (h op (by simp)) s
    obtain ⟨h3, h4⟩ := ih (step s op) (fun o ho => h o (by simp [ho]))
    refine ⟨by rw [List.foldl_cons, h3, h1], ?_⟩
    rw [List.foldl_cons, h4]
    have e : elapsed (op :: ops) = elapsed [op] + elapsed ops := by simp [elapsed]
    rw [e]
    omega

/-- **C54.** The duration reported for a key is the time since its last note-on: samples rendered since, plus the position
of the query in the current block, minus the position of the note-on in its block (for durations below 2^32 samples). -/
theorem midi_note_duration (hist rest : List Op) (d0 n : Int) (v u b : ℚ) (hn : IsKey n) (d : Int)
    (hrest : ∀ op ∈ rest, KeepsTime n.toNat op)
    (hpos : 0 ≤ elapsed rest + d - d0) (hlt : elapsed rest + d - d0 < 2 ^ 32) :
    noteDurationSamples (run (hist ++ .noteOn d0 n v u b :: rest)) n.toNat d = elapsed rest + d - d0 := by
  have e : run (hist ++ .noteOn d0 n v u b :: rest) = rest.foldl step (noteOn (run hist) d0 n v u b) := by
    simp [run, List.foldl_append, step]
  obtain ⟨h1, h2⟩ := keepsTime_foldl (noteOn (run hist) d0 n v u b) hrest
  have h3 : (noteOn (run hist) d0 n v u b).noteOnTimes n.toNat = clockPlus (run hist).internalClock d0 := by
    unfold noteOn; rw [if_pos hn]
    show upd _ _ _ _ = _
    simp [upd]
  have h4 : (noteOn (run hist) d0 n v u b).internalClock = (run hist).internalClock := by
    unfold noteOn; rw [if_pos hn]; rfl
  rw [e]
  unfold noteDurationSamples
  rw [h1, h3]
  rw [h4] at h2
  unfold clockPlus
  generalize (rest.foldl step (noteOn (run hist) d0 n v u b)).internalClock = c at *
  generalize (run hist).internalClock = c0 at *
  generalize elapsed rest = E at *
  have h5 : (((c0 : Int) + d0) % 2 ^ 32).toNat = ((c0 : Int) + d0) % 2 ^ 32 := Int.toNat_of_nonneg (by omega)
  rw [h5]
  have h6 : ((c : Int) + d - ((c0 : Int) + d0) % 2 ^ 32) % 2 ^ 32 = E + d - d0 := by
    have : (c : Int) % 2 ^ 32 = ((c0 : Int) + E) % 2 ^ 32 := by exact_mod_cast h2
    omega
  rw [h6, Int.toNat_of_nonneg hpos]

/-- Witness. -/
example : noteDurationSamples (run [.advance 100, .noteOn 5 60 1 0 0, .advance 64, .noteOn 0 61 1 0 0, .advance 64]) 60 3
    = 126 := by decide +kernel

/-! ### C55: derived controllers -/

/-- Notes played since the notes were last reset. -/
def notesPlayed (ops : List Op) : List Nat :=
  ops.foldl (fun l op => match op with
    | .noteOn _ n .. => if IsKey n then l ++ [n.toNat] else l
    | .resetNoteStates => []
    | _ => l) []

theorem notesPlayed_snoc (ops : List Op) (op : Op) : notesPlayed (ops ++ [op]) = match op with
    | .noteOn _ n .. => if IsKey n then notesPlayed ops ++ [n.toNat] else notesPlayed ops
    | .resetNoteStates => []
    | _ => notesPlayed ops := by
  unfold notesPlayed
  rw [List.foldl_append]
  rfl

theorem allNotesOffLoop_rest (s : State) (d : Int) (rnd : Nat → ℚ × ℚ) (k : Nat) :
    (allNotesOffLoop s d rnd k).alternate = s.alternate ∧
    (allNotesOffLoop s d rnd k).lastNotePlayed = s.lastNotePlayed := by
  induction k with
  | zero => exact ⟨rfl, rfl⟩
  | succ k ih =>
    simp only [allNotesOffLoop, noteOff]
    split
    · exact ih
    · exact ih

theorem played_inv (ops : List Op) :
    (run ops).alternate = ((notesPlayed ops).length % 2 : Nat) ∧
    (run ops).lastNotePlayed = (notesPlayed ops).getLast? := by
  induction ops using List.reverseRecOn with
  | nil => exact ⟨by decide +kernel, rfl⟩
  | append_singleton ops op ih =>
    obtain ⟨h1, h2⟩ := ih
    rw [run_snoc, notesPlayed_snoc]
    cases op with
    | noteOn d n v u b =>
      simp only [step, noteOn]
      by_cases hn : IsKey n
      · rw [if_pos hn, if_pos hn]
        refine ⟨?_, by simp [ccEvent]⟩
        show (if (run ops).alternate = 0 then (1 : ℚ) else 0) = _
        rw [h1, List.length_append]
        rcases Nat.mod_two_eq_zero_or_one (notesPlayed ops).length with h | h
        · have : ((notesPlayed ops).length + [n.toNat].length) % 2 = 1 := by simp; omega
          rw [h, this]; simp
        · have : ((notesPlayed ops).length + [n.toNat].length) % 2 = 0 := by simp; omega
          rw [h, this]; simp
      · rw [if_neg hn, if_neg hn]; exact ⟨h1, h2⟩
    | noteOff d n v u b =>
      simp only [step, noteOff]
      split
      · exact ⟨h1, h2⟩
      · exact ⟨h1, h2⟩
    | allNotesOff d rnd =>
      simp only [step, allNotesOff]
      rw [(allNotesOffLoop_rest _ _ _ _).1, (allNotesOffLoop_rest _ _ _ _).2]
      exact ⟨h1, h2⟩
    | polyAftertouch d n v =>
      simp only [step, polyAftertouch]
      split
      · exact ⟨h1, h2⟩
      · exact ⟨h1, h2⟩
    | resetNoteStates => exact ⟨by simp [step, resetNoteStates, setEvents], rfl⟩
    | _ => exact ⟨h1, h2⟩

theorem mem_insert_self {l : EventVector} (h : Sorted l) (d : Int) (v : ℚ) : (⟨d, v⟩ : Event) ∈ insertEvent l d v := by
  rw [(insertEvent_eq h d v).2, mem_ins_iff h]; exact Or.inl rfl

/-- **C55.** A note-on at time `d` sends, at that time: to CC 137 the parity of the number of notes played before;
to CC 140 the interval to the previous note (0 for the first one) and to CC 141 its absolute value. -/
theorem midi_derived_controllers (ops : List Op) (d n : Int) (v u b : ℚ) (hn : IsKey n) :
    let s := run (ops ++ [.noteOn d n v u b])
    let delta : ℚ := ((notesPlayed ops).getLast?.map (fun l : Nat => (n : ℚ) - (l : ℚ))).getD 0
    (⟨d, ((notesPlayed ops).length % 2 : Nat)⟩ : Event) ∈ s.cc 137 ∧
    (⟨d, delta⟩ : Event) ∈ s.cc 140 ∧ (⟨d, |delta|⟩ : Event) ∈ s.cc 141 := by
  obtain ⟨h1, h2⟩ := played_inv ops
  have hg := good_run ops
  intro s delta
  have hcc : ∀ m, m = 137 ∨ m = 140 ∨ m = 141 →
      s.cc m = insertEvent ((run ops).cc m) d
        (if m = 137 then (run ops).alternate else if m = 140 then delta else |delta|) := by
    intro m hm
    show (run (ops ++ [.noteOn d n v u b])).cc m = _
    rw [run_snoc]
    simp only [step, noteOn]
    rw [if_pos hn]
    have hdelta : delta = keydelta (run ops) n.toNat := by
      show ((notesPlayed ops).getLast?.map (fun l : Nat => (n : ℚ) - (l : ℚ))).getD 0 = _
      unfold keydelta
      rw [h2]
      cases (notesPlayed ops).getLast? with
      | none => rfl
      | some l =>
        have : ((n.toNat : Int) : Int) = n := Int.toNat_of_nonneg hn.1
        simp only [Option.map_some, Option.getD_some, this]
        push_cast
        rfl
    rw [hdelta]
    rcases hm with rfl | rfl | rfl <;>
      simp [ccEvent, upd, ccNoteOnVelocity, ccKeyboardNoteNumber, ccUnipolarRandom, ccBipolarRandom,
        ccKeyboardNoteGate, ccKeydelta, ccAbsoluteKeydelta, ccAlternate]
  refine ⟨?_, ?_, ?_⟩
  · rw [hcc 137 (by simp)]
    simp only [if_true, h1]
    exact mem_insert_self (hg (.cc 137)).1 d _
  · rw [hcc 140 (by simp)]
    exact mem_insert_self (hg (.cc 140)).1 d _
  · rw [hcc 141 (by simp)]
    exact mem_insert_self (hg (.cc 141)).1 d _

/-- Witness: the third note, a fourth above the second. -/
example : let s := run [.noteOn 0 60 1 0 0, .noteOn 1 62 1 0 0, .noteOn 2 67 1 0 0]
    s.cc 137 = [⟨0, 0⟩, ⟨1, 1⟩, ⟨2, 0⟩] ∧ s.cc 140 = [⟨0, 0⟩, ⟨1, 2⟩, ⟨2, 5⟩] := by decide +kernel

/-- **C54, change of the sample rate.** A key held over a change of the sample rate, and not pressed again, counts from the change on. -/
theorem midi_duration_rate (hist rest : List Op) (k : Nat) (d : Int) (hrest : ∀ op ∈ rest, KeepsTime k op)
    (hpos : 0 ≤ elapsed rest + d) (hlt : elapsed rest + d < 2 ^ 32) :
    noteDurationSamples (run (hist ++ .setSampleRate :: rest)) k d = elapsed rest + d := by
  have e : run (hist ++ .setSampleRate :: rest) = rest.foldl step (setSampleRate (run hist)) := by
    simp [run, List.foldl_append, step]
  obtain ⟨h1, h2⟩ := keepsTime_foldl (setSampleRate (run hist)) hrest
  have h3 : (setSampleRate (run hist)).noteOnTimes k = 0 := rfl
  have h4 : (setSampleRate (run hist)).internalClock = 0 := rfl
  rw [e]
  unfold noteDurationSamples
  rw [h1, h3]
  rw [h4] at h2
  generalize (rest.foldl step (setSampleRate (run hist))).internalClock = c at *
  generalize elapsed rest = E at *
  have h6 : ((c : Int) + d - ((0 : Nat) : Int)) % 2 ^ 32 = E + d := by
    have : (c : Int) % 2 ^ 32 = ((0 : Int) + E) % 2 ^ 32 := by exact_mod_cast h2
    omega
  rw [h6, Int.toNat_of_nonneg hpos]

/-- So the duration is too short: the 100 frames before the change are lost. -/
theorem midi_duration_rate_violated :
    noteDurationSamples (run [.noteOn 0 60 1 0 0, .advance 100, .setSampleRate, .advance 10]) 60 0 = 10 := by decide +kernel

end Verif.Midi
