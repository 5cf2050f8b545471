import Verif.Engine.VoiceLife
import Verif.Engine.OffSteps

/-! C51: starting a voice turns off the voices whose `off_by` names its group. -/
namespace Verif.Engine

open Verif.Layer (Region)

variable {c : Cfg}

/-! ### Specification -/

/-- The voice with record `v` has to give way to a voice of region `r` starting on key (or controller) `number`: it sounds,
it was not started by a note-off, its `off_by` is the group of `r`, and it is of another group or another key. -/
structure GivesWay (c : Cfg) (r : Region) (number : Int) (v : Voice) : Prop where
  sounding : v.offed = false
  attack : v.trig.type ≠ .noteOff
  off_by : ∃ l, v.layer = some l ∧ (c.regions l).offBy = some r.group ∧ ((c.regions l).group ≠ r.group ∨ number ≠ v.trig.number)

/-- The record of a voice started at key `n` by the call that was just made. -/
structure Newborn (n : Int) (v : Voice) : Prop where
  age : v.age = 0
  waiting : v.triggerDelay ≠ none
  attack : v.trig.type = .noteOn
  key : v.trig.number = n

/-! ### Lemmas -/

/-- What is known of the records in the course of a note-on: `H` voices that had to give way, `F` regions started. -/
def During (s0 : VM) (n : Int) (H : Nat → Prop) (F : Nat → Prop) : Nat → Voice → Prop := fun i v =>
  (H i → v.offed = true ∨ v.trig.type = .noteOff ∨ Newborn n v) ∧
  (v = s0.voices i ∨ v.offed = true ∨ v.trig.type = .noteOff ∨ Newborn n v ∧ ∃ l, F l ∧ v.layer = some l)

theorem during_off (s0 : VM) (n : Int) (H F : Nat → Prop) : OffClosed (During s0 n H F) := by
  intro i v d _ _ _
  have h := (offRec_keeps v d).2.2.1
  exact ⟨fun _ => Or.inl h, Or.inr (Or.inl h)⟩

theorem startRec_trig (e : Env) (m : Midi.State) (l : Nat) (d : Int) (t : Trig) (v : Voice) :
    (startRec e m l d t v).trig = (armed e m l t v).trig ∧ (startRec e m l d t v).layer = some l ∧
    (startRec e m l d t v).triggerDelay = some d := by
  obtain ⟨_, h2, _, _, _, h6, h7, _⟩ := ready_keeps e m l d { timed e m l d (armed e m l t v) with state := .playing }
  exact ⟨h6, h7, h2⟩

theorem during_startOff (s0 : VM) (n : Int) (H F : Nat → Prop) (m : Midi.State) :
    StartClosed c m (· = .noteOff) (During s0 n H F) := by
  intro i l d t v ht
  have h : (startRec c.toEnv m l d t (cleared v)).trig.type = .noteOff := by
    rw [(startRec_trig c.toEnv m l d t (cleared v)).1]; exact ht
  exact ⟨fun _ => Or.inr (Or.inl h), Or.inr (Or.inr (Or.inl h))⟩

theorem newborn_start (m : Midi.State) (l : Nat) (d n : Int) (x : ℚ) (v : Voice) :
    Newborn n (startRec c.toEnv m l d { type := .noteOn, number := n, value := x } (cleared v)) := by
  obtain ⟨h1, h2, h3⟩ := startRec_trig c.toEnv m l d { type := .noteOn, number := n, value := x } (cleared v)
  refine ⟨(startRec_keeps c.toEnv m l d _ v).1, by rw [h3]; simp, by rw [h1]; rfl, by rw [h1]; rfl⟩

theorem Hold.mono {Q Q' : Nat → Voice → Prop} {s : VM} (h : Hold Q s) (hq : ∀ i v, Q i v → Q' i v) : Hold Q' s :=
  fun i hi hp => hq _ _ (h i hi hp)

/-- One voice of the choke loop. -/
theorem chokeOne_during {disp : E → Int → Int → ℚ → Option E} (hd : ∀ s d k v s', disp s d k v = some s' → Offs c s s')
    {s0 : VM} {n d : Int} {H F : Nat → Prop} {r : Region} {b : Bool} {s s' : E} {i : Nat}
    (h : Hold (During s0 n H F) s.vm) (hs : chokeOne c disp r d n b s i = some s') :
    Hold (During s0 n (fun j => H j ∨ j = i ∧ GivesWay c r n (s0.voices j)) F) s'.vm := by
  have key : Hold (During s0 n H F) s'.vm :=
    h.offs (during_off _ _ _ _) (chokeOne_atoms hd hs) (during_startOff _ _ _ _ _)
  unfold chokeOne at hs
  rw [Option.bind_eq_bind, Option.bind_eq_some_iff] at hs
  obtain ⟨⟨vm, hit⟩, h1, h2⟩ := hs
  simp only at h2
  -- after the choke proper
  have mid : Hold (During s0 n (fun j => H j ∨ j = i ∧ GivesWay c r n (s0.voices j)) F) vm := by
    have hbase : Hold (During s0 n H F) vm := by
      rcases checkOffGroup_off h1 with ⟨_, rfl⟩ | ⟨_, h3⟩
      · exact h
      · exact h.off (during_off _ _ _ _) h3
    intro j hj hp
    obtain ⟨q1, q2⟩ := hbase j hj hp
    refine ⟨?_, q2⟩
    rintro (hH | ⟨rfl, hg⟩)
    · exact q1 hH
    · rcases checkOffGroup_off h1 with ⟨rfl, rfl⟩ | ⟨_, h3⟩
      · rcases q2 with q | q | q | ⟨q, _⟩
        · exfalso
          obtain ⟨g1, g2, l, g3, g4, g5⟩ := hg
          rw [← q] at g1 g2 g3 g5
          unfold checkOffGroup at h1
          rw [g3] at h1
          simp only [g1, Bool.false_eq_true, if_false] at h1
          rw [if_pos] at h1
          · rw [Option.map_eq_some_iff] at h1
            obtain ⟨_, _, h2⟩ := h1
            cases h2
          · refine ⟨?_, g4, ?_⟩
            · cases ht : (s.vm.voices j).trig.type with
              | noteOn => exact Or.inl rfl
              | cc => exact Or.inr rfl
              | noteOff => exact absurd ht g2
            · rcases g5 with g | g
              · exact Or.inl g
              · exact Or.inr (Or.inr g)
        · exact Or.inl q
        · exact Or.inr (Or.inl q)
        · exact Or.inr (Or.inr q)
      · have hw := off_writes h3
        left
        rw [hw.at]
        exact (offRec_keeps _ d).2.2.1
  split at h2
  · split at h2
    · exact mid.offs (s := { s with vm := vm }) (during_off _ _ _ _) (hd _ _ _ _ _ h2) (during_startOff _ _ _ _ _)
    · cases h2; exact mid
  · cases h2; exact mid

/-- The choke loop: every voice that has to give way does. -/
theorem checkOffGroups_during {disp : E → Int → Int → ℚ → Option E} (hd : ∀ s d k v s', disp s d k v = some s' → Offs c s s')
    {s0 : VM} {n d : Int} {H F : Nat → Prop} {r : Region} {b : Bool} {s s' : E}
    (h : Hold (During s0 n H F) s.vm) (hs : checkOffGroups c disp r d n b s = some s') :
    Hold (During s0 n (fun j => H j ∨ j < s.vm.size ∧ GivesWay c r n (s0.voices j)) F) s'.vm := by
  have key : ∀ (L : List Nat) (s s' : E) (H : Nat → Prop), Hold (During s0 n H F) s.vm →
      L.foldlM (chokeOne c disp r d n b) s = some s' →
      Hold (During s0 n (fun j => H j ∨ j ∈ L ∧ GivesWay c r n (s0.voices j)) F) s'.vm := by
    intro L
    induction L with
    | nil =>
      intro s s' H h hs
      cases hs
      exact h.mono (fun i v hq => ⟨fun hh => hq.1 (by simpa using hh), hq.2⟩)
    | cons a tl ih =>
      intro s s' H h hs
      rw [List.foldlM_cons, Option.bind_eq_bind, Option.bind_eq_some_iff] at hs
      obtain ⟨s1, h1, h2⟩ := hs
      refine (ih s1 s' _ (chokeOne_during hd h h1) h2).mono (fun i v hq => ⟨fun hh => hq.1 ?_, hq.2⟩)
      rcases hh with hh | ⟨hm, hg⟩
      · exact Or.inl (Or.inl hh)
      · rcases List.mem_cons.mp hm with rfl | hm
        · exact Or.inl (Or.inr ⟨rfl, hg⟩)
        · exact Or.inr ⟨hm, hg⟩
  refine (key _ s s' H h hs).mono (fun i v hq => ⟨fun hh => hq.1 ?_, hq.2⟩)
  rcases hh with hh | ⟨hm, hg⟩
  · exact Or.inl hh
  · exact Or.inr ⟨List.mem_range.mpr hm, hg⟩

theorem Offs.size {s s' : E} (h : Offs c s s') : s'.vm.size = s.vm.size := by
  induction h with
  | refl => rfl
  | @tail a b h1 h2 ih =>
    rw [← ih]
    cases h2 with
    | choke i d vm h => exact (off_writes h).size
    | start l d note v head head' vm h => exact startVoice_size h
    | register l note v u h => rfl
    | up l note h => rfl
    | down l note h => rfl
    | draw => rfl

/-- The layers of a note-on, one after the other. -/
theorem noteOnLayers_during {s0 : VM} {n d : Int} {x u : ℚ} : ∀ (L : List Nat) (F : Nat → Prop) (sh sh' : E × Option Nat),
    sh.1.vm.size = s0.size →
    Hold (During s0 n (fun j => j < s0.size ∧ ∃ l, F l ∧ GivesWay c (c.regions l) n (s0.voices j)) F) sh.1.vm →
    L.foldlM (noteOnLayer c d n x u) sh = some sh' →
    ∃ F, Hold (During s0 n (fun j => j < s0.size ∧ ∃ l, F l ∧ GivesWay c (c.regions l) n (s0.voices j)) F) sh'.1.vm := by
  intro L
  induction L with
  | nil => intro F sh sh' _ h hs; cases hs; exact ⟨F, h⟩
  | cons a tl ih =>
    intro F sh sh' hz h hs
    rw [List.foldlM_cons, Option.bind_eq_bind, Option.bind_eq_some_iff] at hs
    obtain ⟨⟨s1, hd1⟩, g1, g2⟩ := hs
    obtain ⟨s, head⟩ := sh
    simp only at hz h
    unfold noteOnLayer at g1
    simp only at g1
    split at g1
    · rw [Option.bind_eq_bind, Option.bind_eq_some_iff] at g1
      obtain ⟨s2, q1, q2⟩ := g1
      obtain ⟨vm, q3, rfl⟩ := start_eq q2
      have ha := checkOffGroups_atoms (noteOffDispatch_atoms _) q1
      have k1 := checkOffGroups_during (noteOffDispatch_atoms _) (s := setLayer s a _) h q1
      have hz2 : s2.vm.size = s0.size := ha.size.trans hz
      refine ih (fun l => F l ∨ l = a) _ sh' ((startVoice_size q3).trans hz2) ?_ g2
      have k2 : Hold (During s0 n (fun j => j < s0.size ∧ ∃ l, (F l ∨ l = a) ∧ GivesWay c (c.regions l) n (s0.voices j))
          (fun l => F l ∨ l = a)) s2.vm := by
        refine k1.mono (fun i v hq => ⟨fun hh => hq.1 ?_, ?_⟩)
        · obtain ⟨hi, l, hl | rfl, hg⟩ := hh
          · exact Or.inl ⟨hi, l, hl, hg⟩
          · exact Or.inr ⟨by rw [← hz] at hi; exact hi, hg⟩
        · rcases hq.2 with q | q | q | ⟨q, l, hl, hl'⟩
          · exact Or.inl q
          · exact Or.inr (Or.inl q)
          · exact Or.inr (Or.inr (Or.inl q))
          · exact Or.inr (Or.inr (Or.inr ⟨q, l, Or.inl hl, hl'⟩))
      refine k2.startVoice (during_off _ _ _ _) (fun i w d' => ?_) q3
      have hn := newborn_start (c := c) s2.midi a d' n x w
      exact ⟨fun _ => Or.inr (Or.inr hn), Or.inr (Or.inr (Or.inr ⟨hn, a, Or.inr rfl, (startRec_trig _ _ _ _ _ _).2.1⟩))⟩
    · cases g1
      exact ih F _ sh' hz h g2

/-! ### C51 -/

/-- C51, completeness, for every instrument and state. If a note-on on key `n` has started a voice `j` of region `l`, then
every voice that had to give way to it does: afterwards it is off or not playing, or its place was taken by a voice that
this very call started. (Voices with the key and the group of the new voice are exempt: `same_key_violated`.) -/
theorem off_groups_complete_partial (s s' : E) (d n : Int) (x : ℚ) (hs : step c s (.noteOn d n x) = some s')
    (j l : Nat) (hj : Plays s' j) (hnew : (s'.vm.voices j) ≠ s.vm.voices j) (hon : (s'.vm.voices j).offed = false)
    (ht : (s'.vm.voices j).trig.type = .noteOn) (hl : (s'.vm.voices j).layer = some l)
    (i : Nat) (hi : Plays s i) (hg : GivesWay c (c.regions l) n (s.vm.voices i)) :
    (s'.vm.voices i).offed = true ∨ ¬ Plays s' i ∨ (s'.vm.voices i).trig.type = .noteOff ∨ Newborn n (s'.vm.voices i) := by
  have hs : hdNoteOn c s d n x = some s' := hs
  unfold hdNoteOn at hs
  unfold noteOnDispatch at hs
  simp only at hs
  rw [Option.bind_eq_bind, Option.bind_eq_some_iff] at hs
  obtain ⟨sh, h1, h2⟩ := hs
  have hvm : s'.vm = sh.1.vm := by cases h2; exact updatePrevious_vm _ _
  rw [hvm] at hnew hon ht hl ⊢
  have hj' : j < sh.1.vm.size ∧ (sh.1.vm.voices j).state = .playing := by rw [← hvm]; exact hj
  obtain ⟨F, h3⟩ := noteOnLayers_during (s0 := s.vm) _ (fun _ => False) _ sh
    (by simp only [noteOnSwitches_vm]; split <;> rfl) (by
      simp only [noteOnSwitches_vm]
      have hv : ∀ s1 : E, s1.vm = s.vm → Hold (During s.vm n (fun j => j < s.vm.size ∧
          ∃ l, False ∧ GivesWay c (c.regions l) n (s.vm.voices j)) (fun _ => False)) s1.vm := by
        intro s1 h i hi hp
        refine ⟨fun hh => absurd hh.2 (by simp), Or.inl (by rw [h])⟩
      apply hv
      simp only [draw]
      split <;> rfl) h1
  have hF : F l := by
    rcases (h3 j hj'.1 hj'.2).2 with q | q | q | ⟨_, l', q1, q2⟩
    · exact absurd q hnew
    · rw [hon] at q; cases q
    · rw [ht] at q; cases q
    · rw [hl] at q2; cases q2; exact q1
  by_cases hp : Plays s' i
  · have hp' : i < sh.1.vm.size ∧ (sh.1.vm.voices i).state = .playing := by rw [← hvm]; exact hp
    rcases (h3 i hp'.1 hp'.2).1 ⟨hi.1, l, hF, hg⟩ with q | q | q
    · exact Or.inl q
    · exact Or.inr (Or.inr (Or.inl q))
    · exact Or.inr (Or.inr (Or.inr q))
  · exact Or.inr (Or.inl hp)

/-- Exactly the voices that must be turned off when a voice of `r` starts from a controller: besides those that give way,
voices of the same group and "key" whose controller conditions do not all hold. -/
def TurnedOff (c : Cfg) (s : E) (r : Region) (number : Int) (v : Voice) : Prop :=
  v.offed = false ∧ v.trig.type ≠ .noteOff ∧ ∃ l, v.layer = some l ∧ (c.regions l).offBy = some r.group ∧
    ((c.regions l).group ≠ r.group ∨ number ≠ v.trig.number ∨ Layer.ccAll (s.layers l) = false)

theorem checkOffGroup_exact {e : Env} {s : VM} {cc : Nat → Bool} {i : Nat} {r : Region} {d n : Int} {vm : VM} {hit : Bool}
    (h : checkOffGroup e s cc i r d n = some (vm, hit)) :
    hit = true ↔ (s.voices i).offed = false ∧ (s.voices i).trig.type ≠ .noteOff ∧
      ∃ l, (s.voices i).layer = some l ∧ (e.regions l).offBy = some r.group ∧
        ((e.regions l).group ≠ r.group ∨ n ≠ (s.voices i).trig.number ∨ cc l = false) := by
  unfold checkOffGroup at h
  cases hl : (s.voices i).layer with
  | none => rw [hl] at h; cases h; simp
  | some l =>
    rw [hl] at h
    simp only at h
    split at h
    · rename_i ho; cases h; simp [ho]
    · rename_i ho
      split at h
      · rename_i hc
        rw [Option.map_eq_some_iff] at h
        obtain ⟨vm', h1, h2⟩ := h
        cases h2
        refine ⟨fun _ => ⟨by simpa using ho, ?_, l, rfl, hc.2.1, ?_⟩, fun _ => rfl⟩
        · rcases hc.1 with h | h <;> rw [h] <;> simp
        · rcases hc.2.2 with h | h | h
          · exact Or.inl h
          · exact Or.inr (Or.inr h)
          · exact Or.inr (Or.inl h)
      · rename_i hc
        cases h
        refine ⟨fun h => (by cases h), fun ⟨_, h2, l', h3, h4, h5⟩ => absurd ?_ hc⟩
        cases h3
        refine ⟨?_, h4, ?_⟩
        · cases ht : (s.voices i).trig.type with
          | noteOn => exact Or.inl rfl
          | cc => exact Or.inr rfl
          | noteOff => exact absurd ht h2
        · rcases h5 with h | h | h
          · exact Or.inl h
          · exact Or.inr (Or.inr h)
          · exact Or.inr (Or.inl h)

/-- C51, exactness of the choke itself, for voices started by controllers (for notes, the releases that chokes cause may
in turn choke and steal): the voices to be turned off are, all others keep their record, and nothing else changes. -/
theorem off_groups_exact_partial (disp : E → Int → Int → ℚ → Option E) (r : Region) (d number : Int) (s s' : E)
    (hs : checkOffGroups c disp r d number true s = some s') :
    (∀ i, i < s.vm.size → TurnedOff c s r number (s.vm.voices i) →
      (s'.vm.voices i).offed = true ∧ (s'.vm.voices i).trig = (s.vm.voices i).trig ∧
        ((s'.vm.voices i).released = true ∨ (s.vm.voices i).state ≠ .playing)) ∧
    (∀ i, ¬ (i < s.vm.size ∧ TurnedOff c s r number (s.vm.voices i)) → s'.vm.voices i = s.vm.voices i) ∧
    s'.layers = s.layers ∧ s'.midi = s.midi ∧ s'.vm.active = s.vm.active := by
  have key : ∀ (L : List Nat) (s1 s' : E), L.Nodup → s1.layers = s.layers → s1.midi = s.midi → s1.vm.active = s.vm.active →
      (∀ i ∈ L, s1.vm.voices i = s.vm.voices i) →
      L.foldlM (chokeOne c disp r d number true) s1 = some s' →
      (∀ i ∈ L, TurnedOff c s r number (s.vm.voices i) → s'.vm.voices i = offRec (s.vm.voices i) d) ∧
      (∀ i, ¬ (i ∈ L ∧ TurnedOff c s r number (s.vm.voices i)) → s'.vm.voices i = s1.vm.voices i) ∧
      s'.layers = s.layers ∧ s'.midi = s.midi ∧ s'.vm.active = s.vm.active := by
    intro L
    induction L with
    | nil => intro s1 s' _ h1 h2 h3 _ hs; cases hs; exact ⟨by simp, by simp, h1, h2, h3⟩
    | cons a tl ih =>
      intro s1 s' hnd h1 h2 h3 h4 hs
      rw [List.foldlM_cons, Option.bind_eq_bind, Option.bind_eq_some_iff] at hs
      obtain ⟨s2, g1, g2⟩ := hs
      obtain ⟨hna, hnd⟩ := List.nodup_cons.mp hnd
      unfold chokeOne at g1
      rw [Option.bind_eq_bind, Option.bind_eq_some_iff] at g1
      obtain ⟨⟨vm, hit⟩, q1, q2⟩ := g1
      have hx := checkOffGroup_exact q1
      rw [h4 a (by simp), h1] at hx
      have hx : hit = true ↔ TurnedOff c s r number (s.vm.voices a) := hx
      have hs2 : s2 = { s1 with vm := vm } := by
        simp only [Bool.true_eq_false, and_false, if_false] at q2
        split at q2 <;> (cases q2; rfl)
      have hact : vm.active = s1.vm.active := by
        rcases checkOffGroup_off q1 with ⟨_, rfl⟩ | ⟨_, h⟩
        · rfl
        · exact (off_frame h).active
      have hoth : ∀ i, i ≠ a → vm.voices i = s1.vm.voices i := by
        intro i hi
        rcases checkOffGroup_off q1 with ⟨_, rfl⟩ | ⟨_, h⟩
        · rfl
        · exact (off_writes h).other hi
      have hata : vm.voices a = if hit then offRec (s.vm.voices a) d else s.vm.voices a := by
        rcases checkOffGroup_off q1 with ⟨rfl, rfl⟩ | ⟨rfl, h⟩
        · simp [h4 a]
        · rw [(off_writes h).at, h4 a (by simp)]; simp
      subst hs2
      obtain ⟨r1, r2, r3⟩ := ih { s1 with vm := vm } s' hnd h1 h2 (hact.trans h3)
        (fun i hi => (hoth i (by rintro rfl; exact hna hi)).trans (h4 i (by simp [hi]))) g2
      have r2a : s'.vm.voices a = vm.voices a := r2 a (fun h => hna h.1)
      refine ⟨?_, ?_, r3⟩
      · intro i hi ht
        rcases List.mem_cons.mp hi with rfl | hi
        · rw [r2a, hata, if_pos (hx.mpr ht)]
        · exact r1 i hi ht
      · intro i hi
        by_cases hia : i = a
        · subst hia
          have : ¬ hit = true := fun h => hi ⟨by simp, hx.mp h⟩
          rw [r2a, hata, if_neg this, h4 i (by simp)]
        · rw [r2 i (fun h => hi ⟨by simp [h.1], h.2⟩)]
          exact hoth i hia
  obtain ⟨k1, k2, k3⟩ := key _ s s' List.nodup_range rfl rfl rfl (fun _ _ => rfl) hs
  refine ⟨fun i hi ht => ?_, fun i hi => k2 i (by simpa [List.mem_range] using hi), k3⟩
  rw [k1 i (List.mem_range.mpr hi) ht]
  obtain ⟨_, _, p3, _, p5, _⟩ := offRec_keeps (s.vm.voices i) d
  refine ⟨p3, p5, ?_⟩
  by_cases hp : (s.vm.voices i).state = .playing
  · left; simp [offRec, releaseRec, hp]
  · exact Or.inr hp

/-- Two regions on different keys that choke each other, in one group. -/
def hihat : Cfg := demo [{ keyRange := ⟨60, 60⟩, group := 1, offBy := some 1 }, { keyRange := ⟨62, 62⟩, group := 1, offBy := some 1 }]

/-- Playing and off, of voices 0 and 1. -/
def pairShown (s : E) : List Bool :=
  [decide ((s.vm.voices 0).state = .playing), (s.vm.voices 0).offed, decide ((s.vm.voices 1).state = .playing), (s.vm.voices 1).offed]

/-- The second key turns the first voice off. -/
example : ((run hihat (demoLoad hihat 4 8) [.noteOn 0 60 1]).map pairShown) = some [true, false, false, false] ∧
    ((run hihat (demoLoad hihat 4 8) [.noteOn 0 60 1, .noteOn 1 62 1]).map pairShown) = some [true, true, true, false] := by
  decide +kernel

/-- The literal statement of C51 fails for repeated notes: the second note-on on the same key is another event, but the
voice of the first one, whose `off_by` is the group, plays on. -/
theorem same_key_violated :
    ((run hihat (demoLoad hihat 4 8) [.noteOn 0 60 1, .noteOn 100 60 1]).map pairShown) = some [true, false, true, false] := by
  decide +kernel

end Verif.Engine
