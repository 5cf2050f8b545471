import Verif.Engine.Life
import Verif.Midi.Notes

/-!
C17 (active voices), C18 (polyphony), C19 (allocation), C56 (every call is defined, the choke cascade ends) and
C49 (all sound off), for every history of calls of the API on every instrument.
-/
namespace Verif.Engine

open Verif.Layer (Region)

/-! ### Specification -/

/-- Voice `i` of the engine is in use for region `l`, which is not disabled. -/
def InUse (c : Cfg) (s : E) (i l : Nat) : Prop :=
  i < s.vm.size ∧ (s.vm.voices i).state ≠ .idle ∧ (s.vm.voices i).layer = some l ∧ (c.regions l).disabled = false

/-- Voice `i` plays region `l` and is not being turned off. -/
def PlaysOn (s : E) (i l : Nat) : Prop :=
  i < s.vm.size ∧ (s.vm.voices i).state = .playing ∧ (s.vm.voices i).offed = false ∧ (s.vm.voices i).layer = some l

/-- At most `n` voices satisfy `P`. -/
def AtMost (n : Nat) (P : Nat → Prop) : Prop := ∀ l : List Nat, l.Nodup → (∀ i ∈ l, P i) → l.length ≤ n

/-- The settings with which stealing is defined: the envelope stealer needs limits of at least one. -/
def Sane (c : Cfg) (n : Nat) (gl sl : Nat → Nat) (ops : List Op) : Prop :=
  c.stealer = .envelopeAndAge →
    1 ≤ n ∧ (∀ g, 1 ≤ gl g) ∧ (∀ k, 1 ≤ sl k) ∧ (∀ l, 1 ≤ (c.regions l).polyphony) ∧
    ∀ k, Op.setNumVoices k ∈ ops → 1 ≤ k

/-! ### Reachable states -/

variable {c : Cfg}

/-- What holds after every history. -/
theorem reachable_ok (m : Midi.State) (sw : Option Int) (n : Nat) (gl sl : Nat → Nat) (ops : List Op)
    (h : Sane c n gl sl ops) :
    ∃ s, run c (load c m sw n gl sl) ops = some s ∧ VInv c.toEnv s.vm ∧ LimitsOk c.toEnv s.vm ∧ PolyOk c.toEnv s.vm := by
  have hl : LimitsOk c.toEnv (initVM n gl sl) := fun hs =>
    ⟨(h hs).1, (h hs).2.1, (h hs).2.2.1, (h hs).2.2.2.1⟩
  have ho : ∀ op ∈ ops, OpOk c.toEnv op := by
    intro op hop
    cases op with
    | setNumVoices k => exact fun hs => (h hs).2.2.2.2 k hop
    | _ => trivial
  have hi := initVM_inv c.toEnv n gl sl
  obtain ⟨s, h1, h2⟩ := run_top (load c m sw n gl sl) ops ho hi hl
  exact ⟨s, h1, h2.inv hi, h2.limits hi hl, h2.poly hi (initVM_poly n gl sl)⟩

/-- C56. Every history of calls is defined: no voice without a region is dereferenced, no stealer looks at an empty
list, every walk along a sister ring ends, and every cascade of chokes and release triggers ends. -/
theorem every_history_defined (m : Midi.State) (sw : Option Int) (n : Nat) (gl sl : Nat → Nat) (ops : List Op)
    (h : Sane c n gl sl ops) : (run c (load c m sw n gl sl) ops).isSome := by
  obtain ⟨s, h1, _⟩ := reachable_ok m sw n gl sl ops h
  rw [h1]; rfl

theorem inUse_iff {s : E} (h : VInv c.toEnv s.vm) (i l : Nat) : InUse c s i l ↔ Listed c.toEnv s.vm i l := by
  constructor
  · rintro ⟨_, _, h3, h4⟩; exact ⟨h3, h4⟩
  · rintro ⟨h3, h4⟩
    exact ⟨h.lt_size _ (by rw [h3]; simp), by rw [ne_eq, h.idle i, h3]; simp, h3, h4⟩

/-- C17. After every history: the list of active voices, the list of each polyphony group and the list of each region
set hold exactly the voices in use (for a region of the group, for a region below the set), each once. -/
theorem active_voices_exact (m : Midi.State) (sw : Option Int) (n : Nat) (gl sl : Nat → Nat) (ops : List Op) (s : E)
    (h : Sane c n gl sl ops) (hr : run c (load c m sw n gl sl) ops = some s) :
    (s.vm.active.Nodup ∧ ∀ i, i ∈ s.vm.active ↔ ∃ l, InUse c s i l) ∧
    (∀ g, (s.vm.groups g).voices.Nodup ∧
      ∀ i, i ∈ (s.vm.groups g).voices ↔ ∃ l, InUse c s i l ∧ (c.regions l).group = g) ∧
    (∀ k, (s.vm.setVoices k).Nodup ∧
      ∀ i, i ∈ s.vm.setVoices k ↔ ∃ l, InUse c s i l ∧ k ∈ (c.regions l).ancestors) := by
  obtain ⟨s', h1, h2, _⟩ := reachable_ok m sw n gl sl ops h
  rw [hr] at h1; cases h1
  simp only [inUse_iff h2]
  exact ⟨⟨h2.actN, h2.act⟩, fun g => ⟨h2.grpN g, h2.grp g⟩, fun k => ⟨h2.setN k, h2.set k⟩⟩

theorem atMost_of_card {s : E} {P : Nat → Bool} {n : Nat} (h : (voicesOf s.vm P).card ≤ n) :
    AtMost n (fun i => ∃ l, PlaysOn s i l ∧ P l = true) := by
  intro L hn hm
  rw [← List.toFinset_card_of_nodup hn]
  refine le_trans (Finset.card_le_card ?_) h
  intro i hi
  obtain ⟨l, ⟨h1, h2, h3, h4⟩, h5⟩ := hm i (List.mem_toFinset.mp hi)
  simp [voicesOf, h1, h2, h3, h4, h5]

/-- C18 for limits of at least one (the statement for all limits fails for zero, `polyphony_zero_violated`): after every
history, the number of voices playing and not being turned off is within the number of voices required of the engine,
within the limit of each polyphony group, of each region set, and of each region. -/
theorem polyphony_limits_partial (m : Midi.State) (sw : Option Int) (n : Nat) (gl sl : Nat → Nat) (ops : List Op) (s : E)
    (h : Sane c n gl sl ops) (hr : run c (load c m sw n gl sl) ops = some s) :
    (1 ≤ s.vm.required → AtMost s.vm.required (fun i => ∃ l, PlaysOn s i l)) ∧
    (∀ g, 1 ≤ (s.vm.groups g).limit →
      AtMost (s.vm.groups g).limit (fun i => ∃ l, PlaysOn s i l ∧ (c.regions l).group = g)) ∧
    (∀ k, 1 ≤ s.vm.setLimits k →
      AtMost (s.vm.setLimits k) (fun i => ∃ l, PlaysOn s i l ∧ k ∈ (c.regions l).ancestors)) ∧
    (∀ l, 1 ≤ (c.regions l).polyphony → AtMost (c.regions l).polyphony (fun i => PlaysOn s i l)) := by
  obtain ⟨s', h1, h2, _, h3⟩ := reachable_ok m sw n gl sl ops h
  rw [hr] at h1; cases h1
  refine ⟨fun h4 => ?_, fun g h4 => ?_, fun k h4 => ?_, fun l h4 => ?_⟩
  · have := h3.engine
    rw [max_eq_right h4] at this
    simpa using atMost_of_card this
  · have := h3.group g
    rw [max_eq_right h4] at this
    simpa using atMost_of_card this
  · have := h3.set k
    rw [max_eq_right h4] at this
    simpa using atMost_of_card this
  · have := h3.region l
    rw [max_eq_right h4] at this
    have h5 := atMost_of_card this
    intro L hn hm
    exact h5 L hn (fun i hi => ⟨l, hm i hi, by simp⟩)

/-- The limits in force are those given at load, and the engine's is the number of voices last set. -/
theorem limits_in_force (m : Midi.State) (sw : Option Int) (n : Nat) (gl sl : Nat → Nat) (ops : List Op) (s : E)
    (h : Sane c n gl sl ops) (hr : run c (load c m sw n gl sl) ops = some s) :
    (∀ g, (s.vm.groups g).limit = gl g) ∧ s.vm.setLimits = sl := by
  have key : ∀ {a b : VM}, VTop c.toEnv a b → VInv c.toEnv a →
      (∀ g, (b.groups g).limit = (a.groups g).limit) ∧ b.setLimits = a.setLimits := by
    intro a b ht
    induction ht with
    | soft h => exact fun _ => ⟨fun g => by rw [h.links.groups], h.links.setLimits⟩
    | reach h =>
      intro hV
      clear hV
      induction h with
      | off h => exact ⟨fun g => by rw [h.soft.links.groups], h.soft.links.setLimits⟩
      | start _ h => exact ⟨h.limits, h.setLimits⟩
      | trans _ _ i1 i2 => exact ⟨fun g => (i2.1 g).trans (i1.1 g), i2.2.trans i1.2⟩
    | @reset s s' i h =>
      intro hi
      obtain ⟨s2, h1, _, _, _, _, h6, h7, _⟩ := reset_ok c.toEnv hi i
      rw [h] at h1; cases h1
      exact ⟨h7, h6⟩
    | init k _ => exact fun _ => ⟨fun g => rfl, rfl⟩
    | trans h1 _ i1 i2 =>
      exact fun hi => ⟨fun g => ((i2 (h1.inv hi)).1 g).trans ((i1 hi).1 g), (i2 (h1.inv hi)).2.trans (i1 hi).2⟩
  have hl : LimitsOk c.toEnv (initVM n gl sl) := fun hs =>
    ⟨(h hs).1, (h hs).2.1, (h hs).2.2.1, (h hs).2.2.2.1⟩
  have ho : ∀ op ∈ ops, OpOk c.toEnv op := by
    intro op hop
    cases op with
    | setNumVoices k => exact fun hs => (h hs).2.2.2.2 k hop
    | _ => trivial
  have hi := initVM_inv c.toEnv n gl sl
  obtain ⟨s', h1, h2⟩ := run_top (load c m sw n gl sl) ops ho hi hl
  rw [hr] at h1; cases h1
  exact key h2 hi

/-! ### Allocation -/

theorem findLoop_spec (s : VM) : ∀ (l : List Nat) (best : Option Nat),
    (∀ b, best = some b → isFree s b = false ∧ offedOrFree s b = true) →
    (∀ i, (∃ j ∈ l, isFree s j = true) → findLoop s l best = some i → i ∈ l ∧ isFree s i = true) ∧
    ((∀ j ∈ l, isFree s j = false) → ∀ i, findLoop s l best = some i →
      (best = some i ∨ i ∈ l ∧ offedOrFree s i = true) ∧ (∀ b, best = some b → (s.voices b).age ≤ (s.voices i).age) ∧
        ∀ j ∈ l, offedOrFree s j = true → (s.voices j).age ≤ (s.voices i).age) ∧
    (findLoop s l best = none ↔ best = none ∧ ∀ j ∈ l, offedOrFree s j = false) := by
  intro l
  induction l with
  | nil =>
    intro best _
    refine ⟨by simp, fun _ i hi => ⟨Or.inl hi, ?_, by simp⟩, by simp [findLoop]⟩
    intro b hb
    simp only [findLoop] at hi
    rw [hb] at hi; cases hi; exact le_refl _
  | cons a tl ih =>
    intro best hb
    by_cases hf : isFree s a = true
    · have hoff : offedOrFree s a = true := by
        simp only [isFree, decide_eq_true_eq] at hf
        simp [offedOrFree, hf]
      refine ⟨?_, ?_, ?_⟩
      · intro i _ hi
        simp only [findLoop, hf, if_true] at hi
        cases hi; exact ⟨by simp, hf⟩
      · intro hall; rw [hall a (by simp)] at hf; cases hf
      · simp [findLoop, hf, hoff]
    · have hf' : isFree s a = false := by simpa using hf
      by_cases ho : offedOrFree s a = true
      · -- the best voice so far
        generalize hb' : (match best with
          | none => some a
          | some b => if (s.voices a).age > (s.voices b).age then some a else some b) = best'
        have hstep : findLoop s (a :: tl) best = findLoop s tl best' := by
          rw [← hb']
          cases best with
          | none => simp [findLoop, hf', ho]
          | some b => simp [findLoop, hf', ho]
        have hbest' : ∀ b, best' = some b → isFree s b = false ∧ offedOrFree s b = true := by
          intro b h
          rw [← hb'] at h
          cases best with
          | none => cases h; exact ⟨hf', ho⟩
          | some b0 =>
            simp only at h
            split at h
            · cases h; exact ⟨hf', ho⟩
            · cases h; exact hb _ rfl
        have hne : best' ≠ none := by
          rw [← hb']
          cases best with
          | none => simp
          | some b => simp only; split <;> simp
        obtain ⟨i1, i2, i3⟩ := ih best' hbest'
        refine ⟨?_, ?_, ?_⟩
        · rintro i ⟨j, hj, hjf⟩ hi
          rw [hstep] at hi
          rcases List.mem_cons.mp hj with rfl | hj
          · rw [hf'] at hjf; cases hjf
          · obtain ⟨k1, k2⟩ := i1 i ⟨j, hj, hjf⟩ hi
            exact ⟨by simp [k1], k2⟩
        · intro hall i hi
          rw [hstep] at hi
          obtain ⟨k1, k2, k3⟩ := i2 (fun j hj => hall j (by simp [hj])) i hi
          obtain ⟨b', hb1⟩ := Option.ne_none_iff_exists'.mp hne
          have hcmp : (s.voices a).age ≤ (s.voices b').age ∧ ∀ b, best = some b → (s.voices b).age ≤ (s.voices b').age := by
            rw [← hb'] at hb1
            cases best with
            | none => cases hb1; exact ⟨le_refl _, by simp⟩
            | some b =>
              simp only at hb1
              split at hb1
              · rename_i hgt
                cases hb1
                refine ⟨le_refl _, ?_⟩
                intro b2 hb2; cases hb2; exact le_of_lt hgt
              · rename_i hle
                cases hb1
                refine ⟨not_lt.mp hle, ?_⟩
                intro b2 hb2; cases hb2; exact le_refl _
          refine ⟨?_, ?_, ?_⟩
          · rcases k1 with k1 | k1
            · rw [← hb'] at k1
              cases best with
              | none => cases k1; exact Or.inr ⟨by simp, ho⟩
              | some b =>
                simp only at k1
                split at k1
                · cases k1; exact Or.inr ⟨by simp, ho⟩
                · exact Or.inl k1
            · exact Or.inr ⟨by simp [k1.1], k1.2⟩
          · intro b hb2
            exact (hcmp.2 b hb2).trans (k2 b' hb1)
          · intro j hj hjo
            rcases List.mem_cons.mp hj with rfl | hj
            · exact hcmp.1.trans (k2 b' hb1)
            · exact k3 j hj hjo
        · rw [hstep, i3]
          constructor
          · rintro ⟨h1, _⟩; exact absurd h1 hne
          · rintro ⟨_, h2⟩; rw [h2 a (by simp)] at ho; cases ho
      · have ho' : offedOrFree s a = false := by simpa using ho
        have hstep : findLoop s (a :: tl) best = findLoop s tl best := by simp [findLoop, hf', ho']
        obtain ⟨i1, i2, i3⟩ := ih best hb
        refine ⟨?_, ?_, ?_⟩
        · rintro i ⟨j, hj, hjf⟩ hi
          rw [hstep] at hi
          rcases List.mem_cons.mp hj with rfl | hj
          · rw [hf'] at hjf; cases hjf
          · obtain ⟨k1, k2⟩ := i1 i ⟨j, hj, hjf⟩ hi
            exact ⟨by simp [k1], k2⟩
        · intro hall i hi
          rw [hstep] at hi
          obtain ⟨k1, k2, k3⟩ := i2 (fun j hj => hall j (by simp [hj])) i hi
          refine ⟨?_, k2, ?_⟩
          · rcases k1 with k1 | k1
            · exact Or.inl k1
            · exact Or.inr ⟨by simp [k1.1], k1.2⟩
          · intro j hj hjo
            rcases List.mem_cons.mp hj with rfl | hj
            · rw [ho'] at hjo; cases hjo
            · exact k3 j hj hjo
        · rw [hstep, i3]
          simp [ho']

/-- C19. The voice given out for a start is within the pool and not one that plays on; it is idle whenever some voice is
idle; otherwise it is one that is being turned off (or about to be cleaned up), and none of those is older. No voice is
given out only if all play on. -/
theorem free_voice_choice (s : VM) :
    (∀ i, findFreeVoice s = some i →
      i < s.size ∧ ((s.voices i).state ≠ .playing ∨ (s.voices i).offed = true) ∧
      ((∃ j, j < s.size ∧ (s.voices j).state = .idle) → (s.voices i).state = .idle) ∧
      ((∀ j, j < s.size → (s.voices j).state ≠ .idle) →
        ∀ j, j < s.size → ((s.voices j).state ≠ .playing ∨ (s.voices j).offed = true) →
          (s.voices j).age ≤ (s.voices i).age)) ∧
    (findFreeVoice s = none ↔
      ∀ j, j < s.size → (s.voices j).state = .playing ∧ (s.voices j).offed = false) := by
  have key : ∀ j, offedOrFree s j = true ↔ ((s.voices j).state ≠ .playing ∨ (s.voices j).offed = true) := by
    intro j; simp [offedOrFree]
  have keyf : ∀ j, isFree s j = true ↔ (s.voices j).state = .idle := by intro j; simp [isFree]
  obtain ⟨h1, h2, h3⟩ := findLoop_spec s (List.range s.size) none (by simp)
  constructor
  · intro i hi
    obtain ⟨hlt, hns⟩ := findFreeVoice_ok s i hi
    have hoff : offedOrFree s i = true := by simpa [Sounds] using hns
    refine ⟨hlt, (key i).mp hoff, ?_, ?_⟩
    · rintro ⟨j, hj, hjf⟩
      exact (keyf i).mp (h1 i ⟨j, by simpa using hj, (keyf j).mpr hjf⟩ hi).2
    · intro hall j hj hjo
      refine (h2 ?_ i hi).2.2 j (by simpa using hj) ((key j).mpr hjo)
      intro k hk
      have := hall k (by simpa using hk)
      rw [ne_eq, ← keyf] at this; simpa using this
  · unfold findFreeVoice
    rw [h3]
    simp only [true_and, List.mem_range]
    constructor
    · intro h j hj
      exact (sounds_iff s j).mp (h j hj)
    · intro h j hj
      exact (sounds_iff s j).mpr (h j hj)

/-! ### No start is lost -/

theorem effectiveVoices_room (n : Nat) (h : n ≤ 256) : max 1 n ≤ effectiveVoices n := by
  unfold effectiveVoices; omega

/-- The pool keeps the size computed for the number of voices required. -/
theorem VTop.pool {e : Env} {s s' : VM} (hr : VTop e s s') : VInv e s → s.size = effectiveVoices s.required →
    s'.size = effectiveVoices s'.required := by
  induction hr with
  | soft h => intro _ hs; rw [h.links.size, h.links.required]; exact hs
  | reach h =>
    intro hV
    clear hV
    induction h with
    | off h => intro hs; rw [h.soft.links.size, h.soft.links.required]; exact hs
    | start _ h => intro hs; rw [h.size, h.required]; exact hs
    | trans _ _ i1 i2 => exact fun hs => i2 (i1 hs)
  | @reset s s' i h =>
    intro hi hs
    obtain ⟨s2, h1, _, _, h4, h5, _⟩ := reset_ok e hi i
    rw [h] at h1; cases h1
    rw [h4, h5]; exact hs
  | init n _ => intro _ _; rfl
  | trans h1 _ i1 i2 => exact fun hi hs => i2 (h1.inv hi) (i1 hi hs)

/-- With at most 256 voices required, a start on a reachable state always gets a voice: the checks turn off enough. -/
theorem start_gets_voice (s : VM) (hi : VInv c.toEnv s) (hl : LimitsOk c.toEnv s) (hp : PolyOk c.toEnv s)
    (hz : s.size = effectiveVoices s.required) (hn : s.required ≤ 256) (l : Nat) (d : Int) (t : Trig) :
    ∃ s1 i, checkPolyphony c.toEnv s l d t = some s1 ∧ findFreeVoice s1 = some i := by
  obtain ⟨s1, h1, h2, h3⟩ := checkPolyphony_ok hi hl l d t
  obtain ⟨r1, _⟩ := h3.room hi h2 hp
  cases hf : findFreeVoice s1 with
  | some i => exact ⟨s1, i, h1, hf⟩
  | none =>
    exfalso
    have hall := (free_voice_choice s1).2.mp hf
    have h1' := hi.soft h2.soft
    have hsub : Finset.range s1.size ⊆ voicesOf s1 (fun _ => true) := by
      intro j hj
      have hj' := Finset.mem_range.mp hj
      obtain ⟨a, b⟩ := hall j hj'
      rw [mem_voicesOf h1']
      have hs := (sounds_iff s1 j).mpr ⟨a, b⟩
      obtain ⟨k, hk⟩ := h1'.sounds_layer hs
      exact ⟨hs, k, hk, rfl⟩
    have hcard := Finset.card_le_card hsub
    rw [Finset.card_range, h2.soft.links.size, hz] at hcard
    have := effectiveVoices_room s.required hn
    omega

/-- Starts after every history with at most 256 voices always get a voice. -/
theorem no_start_lost (m : Midi.State) (sw : Option Int) (n : Nat) (gl sl : Nat → Nat) (ops : List Op) (s : E)
    (h : Sane c n gl sl ops) (hr : run c (load c m sw n gl sl) ops = some s) (hn : s.vm.required ≤ 256)
    (l : Nat) (d : Int) (t : Trig) :
    ∃ s1 i, checkPolyphony c.toEnv s.vm l d t = some s1 ∧ findFreeVoice s1 = some i := by
  obtain ⟨s', h1, h2, h3, h4⟩ := reachable_ok m sw n gl sl ops h
  rw [hr] at h1; cases h1
  have hl : LimitsOk c.toEnv (initVM n gl sl) := fun hs =>
    ⟨(h hs).1, (h hs).2.1, (h hs).2.2.1, (h hs).2.2.2.1⟩
  have ho : ∀ op ∈ ops, OpOk c.toEnv op := by
    intro op hop
    cases op with
    | setNumVoices k => exact fun hs => (h hs).2.2.2.2 k hop
    | _ => trivial
  obtain ⟨s', k1, k2⟩ := run_top (load c m sw n gl sl) ops ho (initVM_inv c.toEnv n gl sl) hl
  rw [hr] at k1; cases k1
  exact start_gets_voice s.vm h2 h3 h4 (k2.pool (initVM_inv c.toEnv n gl sl) rfl) hn l d t

/-! ### All sound off -/

theorem resetAll_ok : ∀ (L : List Nat) (s : VM), VInv c.toEnv s →
    ∃ s', L.foldlM (reset c.toEnv) s = some s' ∧ VInv c.toEnv s' ∧ s'.size = s.size ∧
      (∀ i ∈ L, (s'.voices i).state = .idle) ∧ ∀ i, (s.voices i).state = .idle → (s'.voices i).state = .idle := by
  intro L
  induction L with
  | nil => intro s h; exact ⟨s, rfl, h, rfl, by simp, fun _ => id⟩
  | cons a tl ih =>
    intro s h
    obtain ⟨s1, h1, h2, h3, h4, _⟩ := reset_ok c.toEnv h a
    obtain ⟨s2, h5, h6, h7, h8, h9⟩ := ih s1 h2
    have ha : (s1.voices a).state = .idle := by rw [h3, upd_same]; rfl
    refine ⟨s2, by rw [List.foldlM_cons, h1]; exact h5, h6, h7.trans h4, ?_, ?_⟩
    · intro i hi
      rcases List.mem_cons.mp hi with rfl | hi
      · exact h9 i ha
      · exact h8 i hi
    · intro i hi
      apply h9
      by_cases hia : i = a
      · subst hia; exact ha
      · rw [h3, upd_other _ hia]; exact hi

theorem silent_of_idle {s : VM} (h : VInv c.toEnv s) (hall : ∀ i, i < s.size → (s.voices i).state = .idle) :
    (∀ i, (s.voices i).state = .idle) ∧ s.active = [] ∧ (∀ g, (s.groups g).voices = []) ∧ ∀ k, s.setVoices k = [] := by
  have hid : ∀ i, (s.voices i).state = .idle := by
    intro i
    by_cases hi : i < s.size
    · exact hall i hi
    · exact (h.idle i).mpr (h.out i (by omega))
  have hno : ∀ i l, ¬ Listed c.toEnv s i l := by
    intro i l hl
    have := (h.idle i).mp (hid i)
    rw [hl.1] at this; cases this
  refine ⟨hid, ?_, ?_, ?_⟩
  · rw [List.eq_nil_iff_forall_not_mem]
    intro i hi
    obtain ⟨l, hl⟩ := (h.act i).mp hi
    exact hno i l hl
  · intro g
    rw [List.eq_nil_iff_forall_not_mem]
    intro i hi
    obtain ⟨l, hl, _⟩ := (h.grp g i).mp hi
    exact hno i l hl
  · intro k
    rw [List.eq_nil_iff_forall_not_mem]
    intro i hi
    obtain ⟨l, hl, _⟩ := (h.set k i).mp hi
    exact hno i l hl

theorem eachReset_silent (s : E) (h : VInv c.toEnv s.vm) :
    ∃ s', eachVoiceM (reset c.toEnv) s = some s' ∧ s'.midi = s.midi ∧
      (∀ i, (s'.vm.voices i).state = .idle) ∧ s'.vm.active = [] ∧ (∀ g, (s'.vm.groups g).voices = []) ∧
      ∀ k, s'.vm.setVoices k = [] := by
  obtain ⟨vm, h1, h2, h3, h4, _⟩ := resetAll_ok (List.range s.vm.size) s.vm h
  obtain ⟨a, b, d, f⟩ := silent_of_idle h2 (fun i hi => h4 i (by simpa [h3] using hi))
  exact ⟨{ s with vm := vm }, by simp [eachVoiceM, h1], rfl, a, b, d, f⟩

/-- C49, the voices: after every history, an all-sound-off (controllers 120 and 123 received as MIDI, or the call of the
API) leaves every voice idle and every list of active voices empty. -/
theorem all_sound_off_silences (m : Midi.State) (sw : Option Int) (n : Nat) (gl sl : Nat → Nat) (ops : List Op) (s : E)
    (h : Sane c n gl sl ops) (hr : run c (load c m sw n gl sl) ops = some s) (op : Op)
    (hop : op = .allSoundOff ∨ ∃ d v, op = .cc d 120 v ∨ op = .cc d 123 v) :
    ∃ s', step c s op = some s' ∧ (∀ i, (s'.vm.voices i).state = .idle) ∧ s'.vm.active = [] ∧
      (∀ g, (s'.vm.groups g).voices = []) ∧ ∀ k, s'.vm.setVoices k = [] := by
  obtain ⟨s', h1, h2, _⟩ := reachable_ok m sw n gl sl ops h
  rw [hr] at h1; cases h1
  obtain ⟨s1, k1, _, k3⟩ := eachReset_silent s h2
  rcases hop with rfl | ⟨d, v, rfl | rfl⟩
  · exact ⟨s1, k1, k3⟩
  · refine ⟨{ s1 with midi := Midi.allNotesOff s1.midi d (notesOffDraws c s1) }, ?_, k3⟩
    simp [step, performHdcc, k1]
  · refine ⟨{ s1 with midi := Midi.allNotesOff s1.midi d (notesOffDraws c s1) }, ?_, k3⟩
    simp [step, performHdcc, k1]

/-- C49, the keys: after controllers 120 and 123 received as MIDI no key counts as pressed. -/
theorem all_notes_off_lifts_keys (s s' : E) (d : Int) (k : Nat) (v : ℚ) (hk : k = 120 ∨ k = 123)
    (hs : step c s (.cc d k v) = some s') : ∀ note, note < 128 → s'.midi.noteStates note = false := by
  intro note hn
  have h : performHdcc c s d k v true (-1) =
      (eachVoiceM (reset c.toEnv) s).bind
        (fun s => some { s with midi := Midi.allNotesOff s.midi d (notesOffDraws c s) }) := by
    rcases hk with rfl | rfl <;> rfl
  simp only [step] at hs
  rw [h, Option.bind_eq_some_iff] at hs
  obtain ⟨s1, _, h2⟩ := hs
  cases h2
  show (Midi.allNotesOffLoop _ _ _ 128).noteStates note = false
  rw [(Midi.allNotesOffLoop_notes _ _ _ 128 (Nat.le_refl _)).1 note, if_pos hn]

/-! ### Concrete cases -/

/-- An instrument from a list of regions. -/
def demo (rs : List Region) (stealer : Stealer := .oldest) (sustainCancelsRelease : Bool := false) : Cfg where
  regions := fun l => rs.getD l {}
  stealer := stealer
  envelopePick := fun _ _ => 0
  promise := fun _ => true
  startEgDelay := fun _ d => d
  sustainCancelsRelease := sustainCancelsRelease
  sampleRate := 48000
  numLayers := rs.length
  rand := fun _ => 1 / 2
  midiRand := fun _ => (0, 0)
  defaultCC := fun _ => 0
  beatsPerSecond := 2

/-- The engine with that instrument, `n` voices, and the same limit `lim` for all groups and sets. -/
def demoLoad (c : Cfg) (n lim : Nat) : E := load c Midi.init none n (fun _ => lim) (fun _ => lim)

/-- What is seen of a voice: playing and not turned off. -/
def soundingVoices (s : E) : List Nat := (List.range s.vm.size).filter (fun i => !offedOrFree s.vm i)

/-- Two regions on every key in groups 0 and 1 and in set 3, one with a limit of one voice. -/
def duo : Cfg := demo [{ ancestors := [3, 0] }, { group := 1, ancestors := [0], polyphony := 1 }]

/-- C17, C18 on a concrete history: two notes on two regions. The region limited to one voice has turned off
the ring of the first note, as well as the limit of the engine would. All four voices are in use. -/
example : ((run duo (demoLoad duo 4 8) [.noteOn 0 60 1, .noteOn 0 62 1]).map
    (fun s => [s.vm.active, (s.vm.groups 0).voices, (s.vm.groups 1).voices, s.vm.setVoices 3, s.vm.setVoices 0,
      soundingVoices s])) =
    some [[0, 1, 2, 3], [0, 2], [1, 3], [0, 2], [0, 1, 2, 3], [2, 3]] := by decide +kernel

example : Sane duo 4 (fun _ => 8) (fun _ => 8) [.noteOn 0 60 1, .noteOn 0 62 1] := by
  intro h; exact absurd h (by decide)

example : Sane { duo with stealer := .envelopeAndAge } 4 (fun _ => 8) (fun _ => 8) [.noteOn 0 60 1, .setNumVoices 3] := by
  intro _
  refine ⟨by omega, by simp, by simp, ?_, ?_⟩
  · intro l
    show 1 ≤ (([{ ancestors := [3, 0] }, { group := 1, ancestors := [0], polyphony := 1 }] : List Region).getD l {}).polyphony
    match l with
    | 0 => decide
    | 1 => decide
    | _ + 2 => show 1 ≤ 256; decide
  · intro k hk
    simp at hk; omega

/-- C18 fails for a limit of zero: the check turns voices off but never refuses a start. -/
theorem polyphony_zero_violated :
    let c := demo [{ polyphony := 0 }]
    ((run c (demoLoad c 4 8) [.noteOn 0 60 1]).map (fun s => (soundingVoices s).length)) = some 1 := by
  decide +kernel

/-- C56 needs `Sane`: with the envelope stealer, a limit of zero takes the front of an empty list. -/
theorem envelope_stealer_zero_violated :
    let c := demo [{ polyphony := 0 }] .envelopeAndAge
    (run c (demoLoad c 4 8) [.noteOn 0 60 1]).isNone = true := by
  decide +kernel

/-- C19 on a concrete state: the second voice is idle and is given out, though the first is being turned off. -/
example :
    let fading : Voice := { state := .playing, layer := some 0, offed := true, age := 5 }
    let s : VM := { size := 2, required := 1, voices := fun i => if i = 0 then fading else {} }
    findFreeVoice s = some 1 := by
  decide

/-- C49 on a concrete history. -/
example : ((run duo (demoLoad duo 4 8) [.noteOn 0 60 1, .cc 0 120 1]).map
    (fun s => (s.vm.active, s.vm.setVoices 0, s.midi.noteStates 60))) = some ([], [], false) := by decide +kernel

/-- A choke cascade: starting region 1 turns off region 0, whose note-off starts the release region 2, which turns off
region 1's earlier voice; it ends. -/
def chokes : Cfg := demo [
  { keyRange := ⟨60, 60⟩, offBy := some 1 },
  { keyRange := ⟨61, 61⟩, group := 1 , offBy := some 2},
  { keyRange := ⟨60, 60⟩, group := 2, trigger := .releaseKey }]

example : ((run chokes (demoLoad chokes 8 8) [.noteOn 0 60 1, .noteOn 0 61 1]).map
    (fun s => (s.vm.active, soundingVoices s))) = some ([0, 1, 2], [1, 2]) := by decide +kernel

end Verif.Engine
