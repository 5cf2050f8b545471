import Verif.Engine.Atoms

/-! What each call does to the conditions of a layer (its core), to the MIDI state and to the current key-switch. -/
namespace Verif.Engine

open Verif.Layer (Region)
open Verif.Range (containsWithEnd)
open Relation (ReflTransGen)

variable {c : Cfg}

/-- One step of the sequence counter. -/
def seqCore (r : Region) (k : Core) : Core :=
  { k with sequenceSwitched := decide (((k.sequenceCounter % r.sequenceLength : Nat) : Int) = (r.sequencePosition : Int) - 1),
           sequenceCounter := k.sequenceCounter + 1 }

/-- The conditions after a controller. -/
def condAfter (r : Region) (f : Nat → Bool) (cc : Nat) (v : ℚ) : Nat → Bool :=
  match r.ccConditions cc with
  | none => f
  | some range => Midi.upd f cc (containsWithEnd range v)

/-- The pedals and conditions after a controller. -/
def condCore (r : Region) (k : Core) (cc : Nat) (v : ℚ) : Core :=
  { k with
    sustainPressed := if cc = r.sustainCC then (r.checkSustain && decide (v ≥ r.sustainThreshold)) else k.sustainPressed,
    sostenutoPressed :=
      if cc = r.sostenutoCC then (r.checkSostenuto && decide (v ≥ r.sostenutoThreshold)) else k.sostenutoPressed,
    ccSwitched := condAfter r k.ccSwitched cc v }

/-- A controller counts for the sequence of the region. -/
def ccCounts (r : Region) (cc : Nat) (v u : ℚ) (arg : Int) : Bool :=
  r.triggerOnCC && Layer.randOk r u
    && (match r.ccTriggers cc with | none => false | some range => containsWithEnd range v)
    && !(decide (cc = 130) && decide (arg ≥ 0) && !containsWithEnd r.keyRange arg)

/-- The core after a controller. -/
def ccCore (r : Region) (k : Core) (cc : Nat) (v u : ℚ) (arg : Int) : Core :=
  if ccCounts r cc v u arg then seqCore r (condCore r k cc v) else condCore r k cc v

theorem sequenceStep_core (r : Region) (s : Layer.State) : core (Layer.sequenceStep r s) = seqCore r (core s) := rfl

theorem registerNoteOn_core (r : Region) (m : Midi.State) (s : Layer.State) (n : Int) (v u : ℚ) :
    core (Layer.registerNoteOn r m s n v u).1 = (if containsWithEnd r.keyRange n then seqCore r (core s) else core s) ∧
    (Layer.registerNoteOn r m s n v u).1.keySwitched = s.keySwitched := by
  unfold Layer.registerNoteOn
  simp only
  by_cases hk : containsWithEnd r.keyRange n = true
  · simp only [hk, if_true]
    split
    · exact ⟨rfl, rfl⟩
    split <;> exact ⟨rfl, rfl⟩
  · simp only [hk, Bool.false_eq_true, if_false]
    split
    · exact ⟨rfl, rfl⟩
    split <;> exact ⟨rfl, rfl⟩

theorem storeSostenuto_core (r : Region) (m : Midi.State) (s : Layer.State) :
    core (Layer.storeSostenutoNotes r m s) = core s ∧ (Layer.storeSostenutoNotes r m s).keySwitched = s.keySwitched := by
  unfold Layer.storeSostenutoNotes
  generalize (List.range 128).filter (fun (k : Nat) => containsWithEnd r.keyRange (k : Int) && m.noteStates k) = L
  induction L generalizing s with
  | nil => exact ⟨rfl, rfl⟩
  | cons a tl ih =>
    rw [List.foldl_cons]
    obtain ⟨h1, h2, _⟩ := delaySostenuto_core r s a (Layer.noteVelocity m a)
    obtain ⟨h3, h4⟩ := ih (Layer.delaySostenutoRelease r s a (Layer.noteVelocity m a))
    exact ⟨h3.trans h1, h4.trans h2⟩

theorem updateSustain_core (r : Region) (s : Layer.State) (cc : Nat) (v : ℚ) :
    core (Layer.updateSustain r s cc v) = { core s with
      sustainPressed := if cc = r.sustainCC then (r.checkSustain && decide (v ≥ r.sustainThreshold)) else s.sustainPressed } ∧
    (Layer.updateSustain r s cc v).keySwitched = s.keySwitched := by
  unfold Layer.updateSustain; split <;> exact ⟨rfl, rfl⟩

theorem updateSostenuto_core (r : Region) (m : Midi.State) (s : Layer.State) (cc : Nat) (v : ℚ) :
    core (Layer.updateSostenuto r m s cc v) = { core s with sostenutoPressed :=
      if cc = r.sostenutoCC then (r.checkSostenuto && decide (v ≥ r.sostenutoThreshold)) else s.sostenutoPressed } ∧
    (Layer.updateSostenuto r m s cc v).keySwitched = s.keySwitched := by
  unfold Layer.updateSostenuto
  by_cases hc : cc = r.sostenutoCC
  · simp only [hc, if_true]
    generalize (r.checkSostenuto && decide (v ≥ r.sostenutoThreshold)) = b
    have key : ∀ s1 : Layer.State, core s1 = core s → s1.keySwitched = s.keySwitched →
        core { s1 with sostenutoPressed := b } = { core s with sostenutoPressed := b } ∧
          ({ s1 with sostenutoPressed := b } : Layer.State).keySwitched = s.keySwitched := by
      intro s1 h1 h2
      refine ⟨?_, h2⟩
      rw [← h1]; rfl
    apply key
    · have h2 : ∀ s1 : Layer.State, core s1 = core s →
          core (if !b && s1.sostenutoPressed then { s1 with delayedSostenuto := [] } else s1) = core s := by
        intro s1 h; split
        · exact h
        · exact h
      apply h2
      split
      · exact (storeSostenuto_core r m s).1
      · rfl
    · have h2 : ∀ s1 : Layer.State, s1.keySwitched = s.keySwitched →
          (if !b && s1.sostenutoPressed then { s1 with delayedSostenuto := [] } else s1).keySwitched = s.keySwitched := by
        intro s1 h; split
        · exact h
        · exact h
      apply h2
      split
      · exact (storeSostenuto_core r m s).2
      · rfl
  · simp only [hc, if_false]; exact ⟨rfl, trivial⟩

theorem updateCondition_core (r : Region) (s : Layer.State) (cc : Nat) (v : ℚ) :
    core (Layer.updateCondition r s cc v) = { core s with ccSwitched := condAfter r s.ccSwitched cc v } ∧
    (Layer.updateCondition r s cc v).keySwitched = s.keySwitched := by
  unfold Layer.updateCondition condAfter
  cases r.ccConditions cc <;> exact ⟨rfl, rfl⟩

theorem updateCCState_core (r : Region) (m : Midi.State) (s : Layer.State) (cc : Nat) (v : ℚ) :
    core (Layer.updateCCState r m s cc v) = condCore r (core s) cc v ∧
    (Layer.updateCCState r m s cc v).keySwitched = s.keySwitched := by
  unfold Layer.updateCCState
  obtain ⟨a1, a2⟩ := updateSustain_core r s cc v
  generalize Layer.updateSustain r s cc v = s1 at a1 a2 ⊢
  obtain ⟨b1, b2⟩ := updateSostenuto_core r m s1 cc v
  generalize Layer.updateSostenuto r m s1 cc v = s2 at b1 b2 ⊢
  obtain ⟨d1, d2⟩ := updateCondition_core r s2 cc v
  refine ⟨?_, d2.trans (b2.trans a2)⟩
  rw [d1, b1, a1]
  have h1 : s2.ccSwitched = s.ccSwitched := by
    have := congrArg Core.ccSwitched b1
    have h2 := congrArg Core.ccSwitched a1
    exact this.trans h2
  have h2 : s1.sostenutoPressed = s.sostenutoPressed := congrArg Core.sostenutoPressed a1
  simp only [condCore, h1, h2]
  rfl

theorem registerCC_core (r : Region) (m : Midi.State) (s : Layer.State) (cc : Nat) (v u : ℚ) (arg : Int) :
    core (Layer.registerCC r m s cc v u arg).1 = ccCore r (core s) cc v u arg ∧
    (Layer.registerCC r m s cc v u arg).1.keySwitched = s.keySwitched := by
  obtain ⟨h1, h2⟩ := updateCCState_core r m s cc v
  unfold Layer.registerCC ccCore ccCounts
  simp only
  generalize Layer.updateCCState r m s cc v = s1 at *
  by_cases ht : r.triggerOnCC = true
  · by_cases hr : Layer.randOk r u = true
    · cases hc : r.ccTriggers cc with
      | none => simp [ht, hr, h1, h2]
      | some range =>
        by_cases hv : containsWithEnd range v = true
        · by_cases hp : cc = 130 ∧ arg ≥ 0 ∧ containsWithEnd r.keyRange arg = false
          · have hp' : cc = Layer.ccPolyAftertouch ∧ arg ≥ 0 ∧ containsWithEnd r.keyRange arg = false := hp
            simp only [ht, hr, hv]
            simp only [Bool.not_true, Bool.false_eq_true, if_false]
            rw [if_pos hp']
            obtain ⟨p1, p2, p3⟩ := hp
            simp [p1, p2, p3]
            rw [← p1]; exact ⟨h1, h2⟩
          · have hp' : ¬ (cc = Layer.ccPolyAftertouch ∧ arg ≥ 0 ∧ containsWithEnd r.keyRange arg = false) := hp
            simp only [ht, hr, hv]
            simp only [Bool.not_true, Bool.false_eq_true, if_false]
            rw [if_neg hp']
            have hb : (decide (cc = 130) && decide (arg ≥ 0) && !containsWithEnd r.keyRange arg) = false := by
              by_contra hb
              simp at hb
              exact hp ⟨hb.1, hb.2.1, hb.2.2⟩
            rw [hb]
            simp only [Bool.and_true, Bool.not_false, if_true]
            exact ⟨by rw [sequenceStep_core, h1], h2⟩
        · simp [ht, hr, hv, h1, h2]
    · simp [ht, hr, h1, h2]
  · simp [ht, h1, h2]

/-! ### Dispatch loops -/

/-- A loop over layers in which each step changes the core of its own layer only. -/
theorem layers_fold {σ : Type*} (f : σ → Nat → Option σ) (co : σ → Nat → Core) (keep : σ → Prop) (g : Nat → Core → Core) :
    ∀ (L : List Nat) (s s' : σ), L.Nodup → keep s →
      (∀ a ∈ L, ∀ s s', keep s → f s a = some s' → keep s' ∧ co s' a = g a (co s a) ∧ ∀ k, k ≠ a → co s' k = co s k) →
      L.foldlM f s = some s' →
      keep s' ∧ ∀ k, co s' k = if k ∈ L then g k (co s k) else co s k := by
  intro L
  induction L with
  | nil => intro s s' _ hk _ h; cases h; exact ⟨hk, fun k => by simp⟩
  | cons a tl ih =>
    intro s s' hn hk hf h
    rw [List.foldlM_cons, Option.bind_eq_bind, Option.bind_eq_some_iff] at h
    obtain ⟨s1, h1, h2⟩ := h
    obtain ⟨hat, hn'⟩ := List.nodup_cons.mp hn
    obtain ⟨k1, k2, k3⟩ := hf a (by simp) s s1 hk h1
    obtain ⟨i1, i2⟩ := ih s1 s' hn' k1 (fun b hb => hf b (by simp [hb])) h2
    refine ⟨i1, fun k => ?_⟩
    rw [i2 k]
    by_cases hka : k = a
    · subst hka; rw [if_neg hat, if_pos (by simp), k2]
    · rw [k3 k hka]; simp [hka]

theorem noteLayers_nodup (n : Int) : (noteLayers c n).Nodup := List.nodup_range.filter _
theorem ccLayers_nodup (n : Nat) : (ccLayers c n).Nodup := List.nodup_range.filter _

theorem setLayer_core (s : E) (l : Nat) (ls : Layer.State) (k : Nat) :
    core ((setLayer s l ls).layers k) = if k = l then core ls else core (s.layers k) := by
  simp only [setLayer, Midi.upd]; split <;> rfl

/-- Choking and starting change no core. -/
theorem chokeAndStart_core {s : E} {l : Nat} {d n : Int} {b : Bool} {t : Trig} {head : Option Nat} {sh : E × Option Nat}
    {f : Nat}
    (h : (checkOffGroups c (noteOffDispatch c f) (c.regions l) d n b s).bind (fun s => start c s l d t head) = some sh) :
    sh.1.midi = s.midi ∧ sh.1.currentSwitch = s.currentSwitch ∧ ∀ k, core (sh.1.layers k) = core (s.layers k) := by
  rw [Option.bind_eq_some_iff] at h
  obtain ⟨s1, h1, h2⟩ := h
  obtain ⟨s2, head'⟩ := sh
  obtain ⟨vm, _, rfl⟩ := start_eq h2
  exact (checkOffGroups_atoms (noteOffDispatch_atoms f) h1).frame

theorem setKeySwitched_frame (b : Bool) (ls : List Nat) : ∀ s : E,
    (setKeySwitched s ls b).midi = s.midi ∧ (setKeySwitched s ls b).currentSwitch = s.currentSwitch ∧
    (setKeySwitched s ls b).draws = s.draws ∧
    (∀ k, core ((setKeySwitched s ls b).layers k) = core (s.layers k)) ∧
    ∀ k, ((setKeySwitched s ls b).layers k).keySwitched = if k ∈ ls then b else (s.layers k).keySwitched := by
  induction ls with
  | nil => intro s; exact ⟨rfl, rfl, rfl, fun _ => rfl, fun _ => by simp [setKeySwitched]⟩
  | cons a tl ih =>
    intro s
    obtain ⟨h1, h2, h3, h4, h5⟩ := ih (setLayer s a { s.layers a with keySwitched := b })
    refine ⟨h1, h2, h3, fun k => (h4 k).trans ?_, fun k => (h5 k).trans ?_⟩
    · rw [setLayer_core]; split
      · rename_i hk; subst hk; rfl
      · rfl
    · simp only [setLayer, Midi.upd]
      by_cases hka : k = a
      · subst hka; simp
      · simp [hka]

/-- The current key-switch after a note-on. -/
def switchAfter (c : Cfg) (sw : Option Int) (note : Int) : Option Int :=
  if (lastLayers c note).isEmpty then sw else some note

theorem noteOnSwitches_frame (s : E) (note : Int) :
    (noteOnSwitches c s note).midi = s.midi ∧ (noteOnSwitches c s note).currentSwitch = switchAfter c s.currentSwitch note ∧
    ∀ k, core ((noteOnSwitches c s note).layers k) = core (s.layers k) := by
  unfold noteOnSwitches switchAfter
  simp only [setKeySwitched_frame]
  by_cases he : (lastLayers c note).isEmpty = true
  · simp [he]
  · simp only [he, Bool.false_eq_true, if_false]
    cases s.currentSwitch with
    | none => exact ⟨rfl, trivial, fun _ => rfl⟩
    | some k =>
      simp only
      split
      · obtain ⟨h1, h2, h3, h4, _⟩ := setKeySwitched_frame false (lastLayers c k) s
        exact ⟨h1, trivial, h4⟩
      · exact ⟨rfl, trivial, fun _ => rfl⟩

theorem noteOnLayer_core {d n : Int} {v u : ℚ} {sh sh' : E × Option Nat} {l : Nat}
    (h : noteOnLayer c d n v u sh l = some sh') :
    (sh'.1.midi = sh.1.midi ∧ sh'.1.currentSwitch = sh.1.currentSwitch) ∧
    ∀ k, core (sh'.1.layers k) = if k = l then (if containsWithEnd (c.regions l).keyRange n
      then seqCore (c.regions l) (core (sh.1.layers l)) else core (sh.1.layers l)) else core (sh.1.layers k) := by
  obtain ⟨s, head⟩ := sh
  unfold noteOnLayer at h
  simp only at h
  have hreg := (registerNoteOn_core (c.regions l) s.midi (s.layers l) n v u).1
  split at h
  · obtain ⟨h1, h2, h3⟩ := chokeAndStart_core h
    refine ⟨⟨h1, h2⟩, fun k => (h3 k).trans ?_⟩
    rw [setLayer_core, hreg]
  · cases h
    refine ⟨⟨rfl, rfl⟩, fun k => ?_⟩
    simp only
    rw [setLayer_core, hreg]

/-- `sw_previous` of a layer after a note-on. -/
def prevCore (r : Region) (note : Int) (k : Core) : Core :=
  if r.previousKeyswitch.isSome then { k with previousKeySwitched := decide (r.previousKeyswitch = some note) } else k

theorem updatePrevious_frame (s : E) (note : Int) :
    (updatePrevious c s note).midi = s.midi ∧ (updatePrevious c s note).currentSwitch = s.currentSwitch ∧
    ∀ k, core ((updatePrevious c s note).layers k) =
      if k < c.numLayers then prevCore (c.regions k) note (core (s.layers k)) else core (s.layers k) := by
  have key : ∀ (L : List Nat) (s : E), L.Nodup →
      let s' := L.foldl (fun s l =>
        setLayer s l { s.layers l with previousKeySwitched := decide ((c.regions l).previousKeyswitch = some note) }) s
      s'.midi = s.midi ∧ s'.currentSwitch = s.currentSwitch ∧
      ∀ k, core (s'.layers k) = if k ∈ L then { core (s.layers k) with
        previousKeySwitched := decide ((c.regions k).previousKeyswitch = some note) } else core (s.layers k) := by
    intro L
    induction L with
    | nil => intro s _; exact ⟨rfl, rfl, fun k => by simp⟩
    | cons a tl ih =>
      intro s hn
      obtain ⟨hat, hn'⟩ := List.nodup_cons.mp hn
      obtain ⟨h1, h2, h3⟩ := ih (setLayer s a { s.layers a with
        previousKeySwitched := decide ((c.regions a).previousKeyswitch = some note) }) hn'
      refine ⟨h1, h2, fun k => (h3 k).trans ?_⟩
      rw [setLayer_core]
      by_cases hka : k = a
      · subst hka; rw [if_neg hat, if_pos rfl, if_pos (by simp)]; rfl
      · simp [hka]
  obtain ⟨h1, h2, h3⟩ := key (previousLayers c) s (List.nodup_range.filter _)
  refine ⟨h1, h2, fun k => (h3 k).trans ?_⟩
  unfold prevCore previousLayers
  simp only [List.mem_filter, List.mem_range]
  by_cases hk : k < c.numLayers <;> by_cases hp : ((c.regions k).previousKeyswitch).isSome = true <;> simp [hk, hp]

/-- What a note-on does to the core of a layer of the instrument. -/
def noteOnCore (r : Region) (note : Int) (k : Core) : Core :=
  prevCore r note (if containsWithEnd r.keyRange note then seqCore r k else k)

theorem noteOnDispatch_core {s s' : E} {d n : Int} {v : ℚ} (h : noteOnDispatch c s d n v = some s') :
    s'.midi = s.midi ∧ s'.currentSwitch = switchAfter c s.currentSwitch n ∧
    ∀ k, core (s'.layers k) = if k < c.numLayers then noteOnCore (c.regions k) n (core (s.layers k)) else core (s.layers k) := by
  unfold noteOnDispatch at h
  simp only at h
  rw [Option.bind_eq_bind, Option.bind_eq_some_iff] at h
  obtain ⟨sh, h1, h2⟩ := h
  cases h2
  obtain ⟨f1, f2, f3⟩ := noteOnSwitches_frame (c := c) (draw s) n
  obtain ⟨⟨k1, k1'⟩, k2⟩ := layers_fold (noteOnLayer c d n v (c.rand s.draws)) (fun sh k => core (sh.1.layers k))
    (fun sh => sh.1.midi = s.midi ∧ sh.1.currentSwitch = switchAfter c s.currentSwitch n)
    (fun k x => if containsWithEnd (c.regions k).keyRange n then seqCore (c.regions k) x else x)
    (noteLayers c n) (noteOnSwitches c (draw s) n, none) sh (noteLayers_nodup n) ⟨f1, f2⟩ (by
      intro a _ x x' hx h
      obtain ⟨⟨p1, p2⟩, p3⟩ := noteOnLayer_core h
      exact ⟨⟨p1.trans hx.1, p2.trans hx.2⟩, by rw [p3 a, if_pos rfl], fun k hk => by rw [p3 k, if_neg hk]⟩) h1
  obtain ⟨u1, u2, u3⟩ := updatePrevious_frame (c := c) sh.1 n
  refine ⟨u1.trans k1, u2.trans k1', fun k => (u3 k).trans ?_⟩
  have hk2 := k2 k
  rw [f3 k] at hk2
  have hdraw : core ((draw s).layers k) = core (s.layers k) := rfl
  rw [hdraw] at hk2
  simp only [hk2, noteLayers, List.mem_filter, List.mem_range, noteOnCore]
  by_cases hk : k < c.numLayers
  · by_cases hc : containsWithEnd (c.regions k).keyRange n = true <;> simp [hk, hc]
  · simp [hk]

theorem startReleases_core {l : Nat} {d : Int} {sh sh' : E × Option Nat} {L : List (Int × ℚ)}
    (h : startReleases c l d sh L = some sh') :
    sh'.1.midi = sh.1.midi ∧ sh'.1.currentSwitch = sh.1.currentSwitch ∧ sh'.1.layers = sh.1.layers := by
  refine foldlM_atoms (fun a b : E × Option Nat => b.1.midi = a.1.midi ∧ b.1.currentSwitch = a.1.currentSwitch ∧
    b.1.layers = a.1.layers) (fun _ => ⟨rfl, rfl, rfl⟩)
    (fun _ _ _ h h' => ⟨h'.1.trans h.1, h'.2.1.trans h.2.1, h'.2.2.trans h.2.2⟩) _ _ _ _ ?_ h
  intro p _ s s' h
  obtain ⟨s', hd⟩ := s'
  obtain ⟨vm, _, rfl⟩ := start_eq h
  exact ⟨rfl, rfl, rfl⟩

theorem ccPedals_core {d : Int} {cc : Nat} {v : ℚ} {sh sh' : E × Option Nat} {l : Nat}
    (h : ccPedals c d cc v sh l = some sh') :
    sh'.1.midi = sh.1.midi ∧ sh'.1.currentSwitch = sh.1.currentSwitch ∧
    (∀ k, core (sh'.1.layers k) = core (sh.1.layers k)) ∧
    ∀ k, (sh'.1.layers k).keySwitched = (sh.1.layers k).keySwitched := by
  unfold ccPedals at h
  rw [Option.bind_eq_bind, Option.bind_eq_some_iff] at h
  obtain ⟨sh1, h1, h2⟩ := h
  have clr : ∀ (s : E) (ls : Layer.State), core ls = core (s.layers l) → ls.keySwitched = (s.layers l).keySwitched →
      (∀ k, core ((setLayer s l ls).layers k) = core (s.layers k)) ∧
      ∀ k, ((setLayer s l ls).layers k).keySwitched = (s.layers k).keySwitched := by
    intro s ls h h'
    constructor
    · intro k
      rw [setLayer_core]; split
      · rename_i hk; subst hk; exact h
      · rfl
    · intro k
      simp only [setLayer, Midi.upd]; split
      · rename_i hk; subst hk; exact h'
      · rfl
  have a1 : sh1.1.midi = sh.1.midi ∧ sh1.1.currentSwitch = sh.1.currentSwitch ∧
      (∀ k, core (sh1.1.layers k) = core (sh.1.layers k)) ∧
      ∀ k, (sh1.1.layers k).keySwitched = (sh.1.layers k).keySwitched := by
    unfold sustainLift at h1
    simp only at h1
    split at h1
    · unfold startDelayedSustain at h1
      simp only at h1
      split at h1
      · cases h1; exact ⟨rfl, rfl, clr _ _ rfl rfl⟩
      · rw [Option.bind_eq_bind, Option.bind_eq_some_iff] at h1
        obtain ⟨sh2, h3, h4⟩ := h1
        cases h4
        obtain ⟨p1, p2, p3⟩ := startReleases_core h3
        have := clr sh2.1 { sh2.1.layers l with delayedSustain := [] } rfl rfl
        refine ⟨p1, p2, fun k => (this.1 k).trans (by rw [p3]), fun k => (this.2 k).trans (by rw [p3])⟩
    · cases h1; exact ⟨rfl, rfl, fun _ => rfl, fun _ => rfl⟩
  have a2 : sh'.1.midi = sh1.1.midi ∧ sh'.1.currentSwitch = sh1.1.currentSwitch ∧
      (∀ k, core (sh'.1.layers k) = core (sh1.1.layers k)) ∧
      ∀ k, (sh'.1.layers k).keySwitched = (sh1.1.layers k).keySwitched := by
    unfold sostenutoLift at h2
    simp only at h2
    split at h2
    · split at h2
      · cases h2
        have ho : ∀ (L : List (Int × ℚ)) (ls : Layer.State),
            core (L.foldl (fun ls p => Layer.delaySustainRelease (c.regions l) ls p.1 p.2) ls) = core ls ∧
            (L.foldl (fun ls p => Layer.delaySustainRelease (c.regions l) ls p.1 p.2) ls).keySwitched = ls.keySwitched := by
          intro L
          induction L with
          | nil => intro ls; exact ⟨rfl, rfl⟩
          | cons a tl ih =>
            intro ls
            rw [List.foldl_cons]
            obtain ⟨x1, x2⟩ := ih (Layer.delaySustainRelease (c.regions l) ls a.1 a.2)
            obtain ⟨y1, y2, _⟩ := delaySustain_core (c.regions l) ls a.1 a.2
            exact ⟨x1.trans y1, x2.trans y2⟩
        obtain ⟨x1, x2⟩ := ho (sh1.1.layers l).delayedSostenuto (sh1.1.layers l)
        exact ⟨rfl, rfl, clr sh1.1 (handOver (c.regions l) (sh1.1.layers l)) x1 x2⟩
      · unfold startDelayedSostenuto at h2
        simp only at h2
        split at h2
        · cases h2; exact ⟨rfl, rfl, clr _ _ rfl rfl⟩
        · rw [Option.bind_eq_bind, Option.bind_eq_some_iff] at h2
          obtain ⟨sh2, h3, h4⟩ := h2
          cases h4
          obtain ⟨p1, p2, p3⟩ := startReleases_core h3
          have := clr sh2.1 { sh2.1.layers l with delayedSostenuto := [] } rfl rfl
          refine ⟨p1, p2, fun k => (this.1 k).trans (by rw [p3]), fun k => (this.2 k).trans (by rw [p3])⟩
    · cases h2; exact ⟨rfl, rfl, fun _ => rfl, fun _ => rfl⟩
  exact ⟨a2.1.trans a1.1, a2.2.1.trans a1.2.1, fun k => (a2.2.2.1 k).trans (a1.2.2.1 k),
    fun k => (a2.2.2.2 k).trans (a1.2.2.2 k)⟩

theorem ccLayer_core {d : Int} {cc : Nat} {v u : ℚ} {arg : Int} {sh sh' : E × Option Nat} {l : Nat}
    (h : ccLayer c d cc v u arg sh l = some sh') :
    (sh'.1.midi = sh.1.midi ∧ sh'.1.currentSwitch = sh.1.currentSwitch) ∧
    ∀ k, core (sh'.1.layers k) = if k = l then ccCore (c.regions l) (core (sh.1.layers l)) cc v u arg
      else core (sh.1.layers k) := by
  unfold ccLayer at h
  rw [Option.bind_eq_bind, Option.bind_eq_some_iff] at h
  obtain ⟨⟨s, head⟩, h1, h2⟩ := h
  obtain ⟨p1, p2, p3, _⟩ := ccPedals_core h1
  simp only at h2 p1 p2 p3
  have hreg := (registerCC_core (c.regions l) s.midi (s.layers l) cc v u arg).1
  split at h2
  · obtain ⟨q1, q2, q3⟩ := chokeAndStart_core h2
    refine ⟨⟨q1.trans p1, q2.trans p2⟩, fun k => (q3 k).trans ?_⟩
    rw [setLayer_core, hreg, p3 l, p3 k]
  · cases h2
    refine ⟨⟨p1, p2⟩, fun k => ?_⟩
    simp only
    rw [setLayer_core, hreg, p3 l, p3 k]

theorem ccDispatch_core {s s' : E} {d : Int} {cc : Nat} {v : ℚ} {arg : Int} (h : ccDispatch c s d cc v arg = some s') :
    s'.midi = s.midi ∧ s'.currentSwitch = s.currentSwitch ∧
    ∀ k, core (s'.layers k) =
      if k ∈ ccLayers c cc then ccCore (c.regions k) (core (s.layers k)) cc v (c.rand s.draws) arg else core (s.layers k) := by
  unfold ccDispatch at h
  simp only at h
  rw [Option.bind_eq_bind, Option.bind_eq_some_iff] at h
  obtain ⟨sh, h1, h2⟩ := h
  cases h2
  obtain ⟨⟨k1, k1'⟩, k2⟩ := layers_fold (ccLayer c d cc v (c.rand s.draws) arg) (fun sh k => core (sh.1.layers k))
    (fun sh => sh.1.midi = s.midi ∧ sh.1.currentSwitch = s.currentSwitch)
    (fun k x => ccCore (c.regions k) x cc v (c.rand s.draws) arg)
    (ccLayers c cc) (draw s, none) sh (ccLayers_nodup cc) ⟨rfl, rfl⟩ (by
      intro a _ x x' hx h
      obtain ⟨⟨p1, p2⟩, p3⟩ := ccLayer_core h
      exact ⟨⟨p1.trans hx.1, p2.trans hx.2⟩, by rw [p3 a, if_pos rfl], fun k hk => by rw [p3 k, if_neg hk]⟩) h1
  exact ⟨k1, k1', k2⟩

/-! ### Whole calls -/

theorem eachVoiceM_frame {f : VM → Nat → Option VM} {s s' : E} (h : eachVoiceM f s = some s') :
    s'.midi = s.midi ∧ s'.currentSwitch = s.currentSwitch ∧ s'.layers = s.layers ∧ s'.draws = s.draws := by
  unfold eachVoiceM at h
  rw [Option.bind_eq_bind, Option.bind_eq_some_iff] at h
  obtain ⟨vm, _, h2⟩ := h
  cases h2; exact ⟨rfl, rfl, rfl, rfl⟩

/-- Controllers that the engine treats as commands when received as MIDI. -/
def isCommand (asMidi : Bool) (cc : Nat) : Bool := asMidi && (decide (cc = 121) || decide (cc = 120) || decide (cc = 123))

theorem performHdcc_core {s s' : E} {d : Int} {cc : Nat} {v : ℚ} {asMidi : Bool} {arg : Int}
    (hn : isCommand asMidi cc = false) (h : performHdcc c s d cc v asMidi arg = some s') :
    s'.midi = Midi.ccEvent s.midi d cc v ∧ s'.currentSwitch = s.currentSwitch ∧
    ∀ k, core (s'.layers k) =
      if k ∈ ccLayers c cc then ccCore (c.regions k) (core (s.layers k)) cc v (c.rand s.draws) arg else core (s.layers k) := by
  unfold performHdcc at h
  have h1 : ¬ (asMidi = true ∧ cc = 121) := by
    rintro ⟨rfl, rfl⟩; simp [isCommand] at hn
  have h2 : ¬ (asMidi = true ∧ (cc = 123 ∨ cc = 120)) := by
    rintro ⟨rfl, rfl | rfl⟩ <;> simp [isCommand] at hn
  rw [if_neg h1, if_neg h2] at h
  simp only at h
  rw [Option.bind_eq_bind, Option.bind_eq_some_iff] at h
  obtain ⟨s1, h3, h4⟩ := h
  cases h4
  obtain ⟨k1, k2, k3⟩ := ccDispatch_core h3
  refine ⟨?_, k2, k3⟩
  show Midi.ccEvent s1.midi d cc v = _
  rw [k1]; rfl

theorem performHdcc_off {s s' : E} {d : Int} {cc : Nat} {v : ℚ} {arg : Int}
    (hc : cc = 120 ∨ cc = 123) (h : performHdcc c s d cc v true arg = some s') :
    s'.midi = Midi.allNotesOff s.midi d (notesOffDraws c s) ∧ s'.currentSwitch = s.currentSwitch ∧ s'.layers = s.layers := by
  have h1 : (eachVoiceM (reset c.toEnv) s).bind
      (fun s => some { s with midi := Midi.allNotesOff s.midi d (notesOffDraws c s) }) = some s' := by
    rcases hc with rfl | rfl <;> exact h
  rw [Option.bind_eq_some_iff] at h1
  obtain ⟨s1, h2, h3⟩ := h1
  cases h3
  obtain ⟨k1, k2, k3, k4⟩ := eachVoiceM_frame h2
  refine ⟨?_, k2, k3⟩
  show Midi.allNotesOff s1.midi d (notesOffDraws c s1) = _
  have : notesOffDraws c s1 = notesOffDraws c s := by funext k; simp only [notesOffDraws, k4]
  rw [k1, this]

/-- All controllers set to their defaults. -/
def resetCore (r : Region) (defaults : Nat → ℚ) (k : Core) : Core :=
  (List.range Layer.numCCs).foldl (fun k cc => condCore r k cc (defaults cc)) k

theorem resetLayerCCs_core (m : Midi.State) (l : Nat) (ls : Layer.State) :
    core (resetLayerCCs c m l ls) = resetCore (c.regions l) c.defaultCC (core ls) ∧
    (resetLayerCCs c m l ls).keySwitched = ls.keySwitched := by
  unfold resetLayerCCs resetCore
  generalize List.range Layer.numCCs = L
  induction L generalizing ls with
  | nil => exact ⟨rfl, rfl⟩
  | cons a tl ih =>
    rw [List.foldl_cons, List.foldl_cons]
    obtain ⟨h1, h2⟩ := updateCCState_core (c.regions l) m ls a (c.defaultCC a)
    obtain ⟨h3, h4⟩ := ih (Layer.updateCCState (c.regions l) m ls a (c.defaultCC a))
    rw [h1] at h3
    exact ⟨h3, h4.trans h2⟩

theorem hdNoteOff_core {s s' : E} {d n : Int} {v : ℚ} (h : hdNoteOff c s d n v = some s') :
    s'.currentSwitch = s.currentSwitch ∧ ∀ k, core (s'.layers k) = core (s.layers k) := by
  unfold hdNoteOff at h
  simp only at h
  obtain ⟨h1, h2, h3⟩ := (noteOffDispatch_atoms _ _ _ _ _ _ h).frame
  refine ⟨h2.trans ?_, fun k => (h3 k).trans ?_⟩
  · simp only [eachVoice]; split <;> rfl
  · simp only [eachVoice]; split <;> rfl

end Verif.Engine
