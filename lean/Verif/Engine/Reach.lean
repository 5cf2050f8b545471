import Verif.Engine.Start

/-! The dispatch of events on the whole engine: it is always defined, the choke cascade ends, and what it does to the
voices is a sequence of chokes and starts. -/
namespace Verif.Engine

open Verif.Layer (Region)

variable {e : Env}

/-- Voices are changed by choking them and by starting layers, for events of the types `T`. -/
inductive VReach (e : Env) (T : EvType → Prop) : VM → VM → Prop
  | off {s s' : VM} : OffVM s s' → VReach e T s s'
  | start {s s' : VM} {l : Nat} {t : EvType} : T t → StartOk e s s' l t → VReach e T s s'
  | trans {a b c : VM} : VReach e T a b → VReach e T b c → VReach e T a c

theorem VReach.refl {T : EvType → Prop} (s : VM) : VReach e T s s := .off (OffVM.refl s)

theorem VReach.mono {T T' : EvType → Prop} (h : ∀ t, T t → T' t) {s s' : VM} (hr : VReach e T s s') :
    VReach e T' s s' := by
  induction hr with
  | off h => exact .off h
  | start ht hs => exact .start (h _ ht) hs
  | trans _ _ i1 i2 => exact .trans i1 i2

theorem VReach.inv {T : EvType → Prop} {s s' : VM} (hr : VReach e T s s') : VInv e s → VInv e s' := by
  induction hr with
  | off h => exact fun hi => hi.soft h.soft
  | start ht hs => exact fun _ => hs.inv
  | trans _ _ i1 i2 => exact fun hi => i2 (i1 hi)

theorem VReach.limits {T : EvType → Prop} {s s' : VM} (hr : VReach e T s s') : LimitsOk e s → LimitsOk e s' := by
  induction hr with
  | off h => exact fun hi => hi.soft h.soft
  | start ht hs =>
    intro hi hst
    have := hi hst
    refine ⟨by rw [hs.required]; exact this.1, fun g => by rw [hs.limits]; exact this.2.1 g,
      fun k => by rw [hs.setLimits]; exact this.2.2.1 k, this.2.2.2⟩
  | trans _ _ i1 i2 => exact fun hi => i2 (i1 hi)

theorem VReach.size {T : EvType → Prop} {s s' : VM} (hr : VReach e T s s') : s'.size = s.size := by
  induction hr with
  | off h => exact h.soft.links.size
  | start ht hs => exact hs.size
  | trans _ _ i1 i2 => exact i2.trans i1

theorem VReach.layers {T : EvType → Prop} {s s' : VM} (hr : VReach e T s s') :
    ∀ j, (s.voices j).layer ≠ none → (s'.voices j).layer ≠ none := by
  induction hr with
  | off h => intro j hj; rw [(h.soft.voices j).layer]; exact hj
  | start ht hs => exact hs.layers
  | trans _ _ i1 i2 => exact fun j hj => i2 j (i1 j hj)

/-! ### Voices that can be choked -/

/-- A voice that an off-group can choke. -/
def Chokable (s : VM) (i : Nat) : Prop :=
  (s.voices i).layer ≠ none ∧ (s.voices i).offed = false ∧ (s.voices i).trig.type ≠ .noteOff

instance (s : VM) (i : Nat) : Decidable (Chokable s i) := by unfold Chokable; infer_instance

/-- The voices that can be choked. -/
def chokables (s : VM) : Finset Nat := (Finset.range s.size).filter (Chokable s)

theorem VReach.chokable {s s' : VM} (hr : VReach e (· = .noteOff) s s') : ∀ i, Chokable s' i → Chokable s i := by
  induction hr with
  | @off s s' h =>
    intro i hi
    have e1 := h.same i hi.2.1
    unfold Chokable at hi ⊢
    rwa [e1] at hi
  | @start s s' l t ht hs =>
    intro i hi
    obtain ⟨s1, h1, _, h2⟩ := hs.how
    have key : Chokable s1 i → Chokable s i := by
      intro hi
      have e1 := h1.same i hi.2.1
      unfold Chokable at hi ⊢
      rwa [e1] at hi
    rcases h2 with rfl | ⟨j, _, _, _, h3, _, h4⟩
    · exact key hi
    · by_cases hij : i = j
      · subst hij
        have : t = .noteOff := ht
        exact absurd (h3.trans this) hi.2.2
      · apply key
        unfold Chokable at hi ⊢
        rwa [h4 i hij] at hi
  | trans _ _ i1 i2 => exact fun i hi => i1 i (i2 i hi)

theorem VReach.card {s s' : VM} (hr : VReach e (· = .noteOff) s s') : (chokables s').card ≤ (chokables s).card := by
  refine Finset.card_le_card ?_
  intro i hi
  simp only [chokables, Finset.mem_filter, Finset.mem_range] at hi ⊢
  exact ⟨by rw [← hr.size]; exact hi.1, hr.chokable i hi.2⟩

theorem off_offVM {s s' : VM} {i : Nat} {d : Int} (h : off s i d = some s') : OffVM s s' := by
  refine ⟨off_soft h, ?_, off_trig h, ?_⟩
  · intro j hj; rw [off_offed h, hj]; simp
  · intro j hj
    refine off_other h ?_
    rintro rfl
    rw [off_offed h] at hj; simp at hj

/-- The choke of one voice. -/
theorem checkOffGroup_ok (s : VM) (cc : Nat → Bool) (i : Nat) (r : Region) (d n : Int) :
    ∃ s' hit, checkOffGroup e s cc i r d n = some (s', hit) ∧ OffVM s s' ∧
      (hit = true → Chokable s i ∧ ¬ Chokable s' i) := by
  unfold checkOffGroup
  cases hl : (s.voices i).layer with
  | none => exact ⟨s, false, rfl, OffVM.refl s, by simp⟩
  | some l =>
    simp only
    by_cases ho : (s.voices i).offed = true
    · simp only [ho, if_true]; exact ⟨s, false, rfl, OffVM.refl s, by simp⟩
    · simp only [ho, Bool.false_eq_true, if_false]
      split
      · rename_i hc
        have h1 := off_some s i d (by rw [hl]; simp)
        rw [h1]
        refine ⟨_, true, rfl, off_offVM h1, fun _ => ⟨⟨by rw [hl]; simp, by simpa using ho, ?_⟩, ?_⟩⟩
        · rcases hc.1 with h | h <;> rw [h] <;> decide
        · intro hk
          have := off_offed h1 i
          rw [hk.2.1] at this; simp at this
      · exact ⟨s, false, rfl, OffVM.refl s, by simp⟩

variable {c : Cfg}

/-- `disp` is defined on states with fewer than `n` voices that can be choked. -/
def DispOk (c : Cfg) (disp : E → Int → Int → ℚ → Option E) (n : Nat) : Prop :=
  ∀ s d k v, VInv c.toEnv s.vm → LimitsOk c.toEnv s.vm → (chokables s.vm).card < n →
    ∃ s', disp s d k v = some s' ∧ VReach c.toEnv (· = .noteOff) s.vm s'.vm

/-- Loops of a partial step. -/
theorem foldlM_ok {σ α : Type*} (f : σ → α → Option σ) (I : σ → Prop) (R : σ → σ → Prop) (hrefl : ∀ s, R s s)
    (htrans : ∀ a b c, R a b → R b c → R a c) (h : ∀ s a, I s → ∃ s', f s a = some s' ∧ I s' ∧ R s s') :
    ∀ (l : List α) (s : σ), I s → ∃ s', l.foldlM f s = some s' ∧ I s' ∧ R s s' := by
  intro l
  induction l with
  | nil => intro s hs; exact ⟨s, rfl, hs, hrefl s⟩
  | cons a tl ih =>
    intro s hs
    obtain ⟨s1, h1, h2, h3⟩ := h s a hs
    obtain ⟨s2, h4, h5, h6⟩ := ih s1 h2
    exact ⟨s2, by rw [List.foldlM_cons, h1]; exact h4, h5, htrans _ _ _ h3 h6⟩

theorem chokeOne_ok {disp : E → Int → Int → ℚ → Option E} {n : Nat} (hd : DispOk c disp n) (r : Region) (d k : Int)
    (b : Bool) (s : E) (i : Nat) (hi : VInv c.toEnv s.vm) (hl : LimitsOk c.toEnv s.vm) (hz : i < s.vm.size)
    (hc : (chokables s.vm).card ≤ n) :
    ∃ s', chokeOne c disp r d k b s i = some s' ∧ VReach c.toEnv (· = .noteOff) s.vm s'.vm := by
  obtain ⟨vm, hit, h1, h2, h3⟩ := checkOffGroup_ok (e := c.toEnv) s.vm (fun l => Layer.ccAll (s.layers l)) i r d k
  have hr : VReach c.toEnv (· = .noteOff) s.vm vm := .off h2
  unfold chokeOne
  rw [h1]
  simp only [Option.bind_eq_bind, Option.bind_some]
  cases hit with
  | false => exact ⟨_, rfl, hr⟩
  | true =>
    simp only [if_true]
    obtain ⟨k1, k2⟩ := h3 rfl
    have hlt : (chokables vm).card < n := by
      refine lt_of_lt_of_le (Finset.card_lt_card ?_) hc
      refine ⟨?_, ?_⟩
      · intro j hj
        simp only [chokables, Finset.mem_filter, Finset.mem_range] at hj ⊢
        exact ⟨by rw [← hr.size]; exact hj.1, hr.chokable j hj.2⟩
      · intro hsub
        have := hsub (x := i) (by simp [chokables, hz, k1])
        simp only [chokables, Finset.mem_filter] at this
        exact k2 this.2
    split
    · obtain ⟨s', h4, h5⟩ := hd { s with vm := vm } d (vm.voices i).trig.number (vm.voices i).trig.value
        (hr.inv hi) (hr.limits hl) hlt
      exact ⟨s', h4, hr.trans h5⟩
    · exact ⟨_, rfl, hr⟩

theorem checkOffGroups_ok {disp : E → Int → Int → ℚ → Option E} {n : Nat} (hd : DispOk c disp n) (r : Region)
    (d k : Int) (b : Bool) (s : E) (hi : VInv c.toEnv s.vm) (hl : LimitsOk c.toEnv s.vm)
    (hc : (chokables s.vm).card ≤ n) :
    ∃ s', checkOffGroups c disp r d k b s = some s' ∧ VReach c.toEnv (· = .noteOff) s.vm s'.vm := by
  unfold checkOffGroups
  have key : ∀ (l : List Nat) (s : E), (∀ i ∈ l, i < s.vm.size) → VInv c.toEnv s.vm → LimitsOk c.toEnv s.vm →
      (chokables s.vm).card ≤ n →
      ∃ s', l.foldlM (chokeOne c disp r d k b) s = some s' ∧ VReach c.toEnv (· = .noteOff) s.vm s'.vm := by
    intro l
    induction l with
    | nil => intro s _ _ _ _; exact ⟨s, rfl, .refl _⟩
    | cons a tl ih =>
      intro s hm h1 h2 h3
      obtain ⟨s1, h4, h5⟩ := chokeOne_ok hd r d k b s a h1 h2 (hm a (by simp)) h3
      obtain ⟨s2, h6, h7⟩ := ih s1 (fun i hi => by rw [h5.size]; exact hm i (by simp [hi])) (h5.inv h1)
        (h5.limits h2) (h5.card.trans h3)
      exact ⟨s2, by rw [List.foldlM_cons, h4]; exact h6, h5.trans h7⟩
  exact key _ s (fun i hi => by simpa using hi) hi hl hc

theorem start_ok {T : EvType → Prop} (s : E) (l : Nat) (d : Int) (t : Trig) (head : Option Nat) (ht : T t.type)
    (hi : VInv c.toEnv s.vm) (hl : LimitsOk c.toEnv s.vm)
    (hh : ∀ a, head = some a → (s.vm.voices a).layer ≠ none) :
    ∃ s' head', start c s l d t head = some (s', head') ∧ VReach c.toEnv T s.vm s'.vm ∧
      ∀ a, head' = some a → (s'.vm.voices a).layer ≠ none := by
  obtain ⟨vm, head', h1, h2, h3⟩ := startVoice_ok hi hl s.midi l d t head hh
  exact ⟨{ s with vm := vm }, head', by simp [start, h1], .start ht h2, h3⟩

/-- States with a ring builder. -/
structure HOk (c : Cfg) (sh : E × Option Nat) : Prop where
  inv : VInv c.toEnv sh.1.vm
  lim : LimitsOk c.toEnv sh.1.vm
  head : ∀ a, sh.2 = some a → (sh.1.vm.voices a).layer ≠ none

theorem HOk.reach {T : EvType → Prop} {sh : E × Option Nat} (h : HOk c sh) {s' : E}
    (hr : VReach c.toEnv T sh.1.vm s'.vm) : HOk c (s', sh.2) :=
  ⟨hr.inv h.inv, hr.limits h.lim, fun a ha => hr.layers a (h.head a ha)⟩

@[simp] theorem setLayer_vm (s : E) (l : Nat) (ls : Layer.State) : (setLayer s l ls).vm = s.vm := rfl

theorem setKeySwitched_vm (b : Bool) (ls : List Nat) : ∀ s : E, (setKeySwitched s ls b).vm = s.vm := by
  induction ls with
  | nil => intro s; rfl
  | cons a tl ih => intro s; exact (ih _).trans rfl

theorem noteOffSwitches_vm (s : E) (n : Int) : (noteOffSwitches c s n).vm = s.vm := by
  simp [noteOffSwitches, setKeySwitched_vm]

theorem noteOffLayer_ok {disp : E → Int → Int → ℚ → Option E} {n : Nat} (hd : DispOk c disp n) (d k : Int) (v u : ℚ)
    (sh : E × Option Nat) (l : Nat) (h : HOk c sh) (hc : (chokables sh.1.vm).card ≤ n) :
    ∃ sh', noteOffLayer c disp d k v u sh l = some sh' ∧ HOk c sh' ∧
      VReach c.toEnv (· = .noteOff) sh.1.vm sh'.1.vm := by
  obtain ⟨s, head⟩ := sh
  unfold noteOffLayer
  simp only
  generalize Layer.registerNoteOff (c.regions l) s.midi (s.layers l) k v u = reg
  obtain ⟨ls, fire⟩ := reg
  simp only
  cases fire with
  | false => exact ⟨_, rfl, ⟨h.inv, h.lim, h.head⟩, .refl _⟩
  | true =>
    simp only [if_true]
    split
    · exact ⟨_, rfl, ⟨h.inv, h.lim, h.head⟩, .refl _⟩
    · obtain ⟨s1, h1, h2⟩ := checkOffGroups_ok hd (c.regions l) d k false (setLayer s l ls) h.inv h.lim hc
      have hh := h.reach h2
      obtain ⟨s2, head2, h3, h4, h5⟩ := start_ok (T := (· = .noteOff)) s1 l d { type := .noteOff, number := k, value := v }
        head rfl hh.inv hh.lim hh.head
      refine ⟨(s2, head2), ?_, ⟨h4.inv hh.inv, h4.limits hh.lim, h5⟩, h2.trans h4⟩
      simp only [h1, Option.bind_eq_bind, Option.bind_some, h3]

/-- The choke cascade ends, and with it every note-off dispatch. -/
theorem noteOffDispatch_ok : ∀ fuel, DispOk c (noteOffDispatch c fuel) fuel := by
  intro fuel
  induction fuel with
  | zero => intro s d k v _ _ h; omega
  | succ fuel ih =>
    intro s d k v hi hl hc
    unfold noteOffDispatch
    simp only
    have hvm : (noteOffSwitches c (draw s) k).vm = s.vm := noteOffSwitches_vm _ _
    obtain ⟨sh, h1, ⟨_, _⟩, h3⟩ := foldlM_ok (noteOffLayer c (noteOffDispatch c fuel) d k v (c.rand s.draws))
      (fun sh => HOk c sh ∧ (chokables sh.1.vm).card ≤ fuel)
      (fun a b => VReach c.toEnv (· = .noteOff) a.1.vm b.1.vm) (fun _ => .refl _) (fun _ _ _ => .trans)
      (by
        intro sh l ⟨ha, hb⟩
        obtain ⟨sh', k1, k2, k3⟩ := noteOffLayer_ok ih d k v (c.rand s.draws) sh l ha hb
        exact ⟨sh', k1, ⟨k2, k3.card.trans hb⟩, k3⟩)
      (noteLayers c k) (noteOffSwitches c (draw s) k, none)
      ⟨⟨by rw [hvm]; exact hi, by rw [hvm]; exact hl, by simp⟩, by rw [hvm]; omega⟩
    refine ⟨sh.1, ?_, ?_⟩
    · rw [h1]; rfl
    · rw [hvm] at h3; exact h3

theorem card_chokables (s : VM) : (chokables s).card ≤ s.size := by
  refine (Finset.card_filter_le _ _).trans ?_
  simp

theorem noteOff_fuel_ok (s s' : E) (d k : Int) (v : ℚ) (hi : VInv c.toEnv s'.vm) (hl : LimitsOk c.toEnv s'.vm)
    (hz : s'.vm.size = s.vm.size) :
    ∃ s'', noteOffDispatch c (fuel s) s' d k v = some s'' ∧ VReach c.toEnv (· = .noteOff) s'.vm s''.vm := by
  refine noteOffDispatch_ok (fuel s) s' d k v hi hl ?_
  have := card_chokables s'.vm
  unfold fuel; omega

theorem anyT {s s' : VM} {T : EvType → Prop} (h : VReach e T s s') : VReach e (fun _ => True) s s' :=
  h.mono (fun _ _ => trivial)

theorem checkOffGroups_fuel (s : E) (r : Region) (d k : Int) (b : Bool) (hi : VInv c.toEnv s.vm)
    (hl : LimitsOk c.toEnv s.vm) :
    ∃ s', checkOffGroups c (noteOffDispatch c (fuel s)) r d k b s = some s' ∧
      VReach c.toEnv (· = .noteOff) s.vm s'.vm :=
  checkOffGroups_ok (noteOffDispatch_ok (fuel s)) r d k b s hi hl (by
    have := card_chokables s.vm
    unfold fuel; omega)

/-- A start after choking (the common end of `noteOnLayer` and `ccLayer`). -/
theorem chokeAndStart_ok (s : E) (l : Nat) (d k : Int) (b : Bool) (t : Trig) (head : Option Nat)
    (h : HOk c (s, head)) :
    ∃ sh, (do
        let s ← checkOffGroups c (noteOffDispatch c (fuel s)) (c.regions l) d k b s
        start c s l d t head) = some sh ∧ HOk c sh ∧ VReach c.toEnv (fun _ => True) s.vm sh.1.vm := by
  obtain ⟨s1, h1, h2⟩ := checkOffGroups_fuel s (c.regions l) d k b h.inv h.lim
  have hh := h.reach h2
  obtain ⟨s2, head2, h3, h4, h5⟩ := start_ok (T := fun _ => True) s1 l d t head trivial hh.inv hh.lim hh.head
  refine ⟨(s2, head2), ?_, ⟨h4.inv hh.inv, h4.limits hh.lim, h5⟩, (anyT h2).trans h4⟩
  simp only [h1, Option.bind_eq_bind, Option.bind_some, h3]

theorem noteOnLayer_ok (d k : Int) (v u : ℚ) (sh : E × Option Nat) (l : Nat) (h : HOk c sh) :
    ∃ sh', noteOnLayer c d k v u sh l = some sh' ∧ HOk c sh' ∧ VReach c.toEnv (fun _ => True) sh.1.vm sh'.1.vm := by
  obtain ⟨s, head⟩ := sh
  unfold noteOnLayer
  simp only
  generalize Layer.registerNoteOn (c.regions l) s.midi (s.layers l) k v u = reg
  obtain ⟨ls, fire⟩ := reg
  simp only
  split
  · exact chokeAndStart_ok (setLayer s l ls) l d k false _ head ⟨h.inv, h.lim, h.head⟩
  · exact ⟨_, rfl, ⟨h.inv, h.lim, h.head⟩, .refl _⟩

theorem noteOnSwitches_vm (s : E) (k : Int) : (noteOnSwitches c s k).vm = s.vm := by
  simp only [noteOnSwitches, setKeySwitched_vm]
  split
  · rfl
  · cases s.currentSwitch with
    | none => rfl
    | some a =>
      simp only
      split
      · exact setKeySwitched_vm _ _ _
      · rfl

theorem updatePrevious_vm (s : E) (k : Int) : (updatePrevious c s k).vm = s.vm := by
  unfold updatePrevious
  generalize previousLayers c = ls
  induction ls generalizing s with
  | nil => rfl
  | cons a tl ih => exact (ih _).trans rfl

theorem noteOnDispatch_ok (s : E) (d k : Int) (v : ℚ) (hi : VInv c.toEnv s.vm) (hl : LimitsOk c.toEnv s.vm) :
    ∃ s', noteOnDispatch c s d k v = some s' ∧ VReach c.toEnv (fun _ => True) s.vm s'.vm := by
  unfold noteOnDispatch
  simp only
  have hvm : (noteOnSwitches c (draw s) k).vm = s.vm := noteOnSwitches_vm _ _
  obtain ⟨sh, h1, _, h3⟩ := foldlM_ok (noteOnLayer c d k v (c.rand s.draws)) (HOk c)
    (fun a b => VReach c.toEnv (fun _ => True) a.1.vm b.1.vm) (fun _ => .refl _) (fun _ _ _ => .trans)
    (fun sh l h => noteOnLayer_ok d k v (c.rand s.draws) sh l h)
    (noteLayers c k) (noteOnSwitches c (draw s) k, none)
    ⟨by rw [hvm]; exact hi, by rw [hvm]; exact hl, by simp⟩
  refine ⟨updatePrevious c sh.1 k, by rw [h1]; rfl, ?_⟩
  rw [updatePrevious_vm]
  rw [hvm] at h3
  exact h3

theorem startReleases_ok (l : Nat) (d : Int) (sh : E × Option Nat) (notes : List (Int × ℚ)) (h : HOk c sh) :
    ∃ sh', startReleases c l d sh notes = some sh' ∧ HOk c sh' ∧
      VReach c.toEnv (fun _ => True) sh.1.vm sh'.1.vm := by
  unfold startReleases
  refine foldlM_ok _ (HOk c) (fun a b => VReach c.toEnv (fun _ => True) a.1.vm b.1.vm) (fun _ => .refl _)
    (fun _ _ _ => .trans) ?_ notes sh h
  intro sh p h
  obtain ⟨s2, head2, h3, h4, h5⟩ := start_ok (T := fun _ => True) sh.1 l d
    { type := .noteOff, number := p.1, value := p.2 } sh.2 trivial h.inv h.lim h.head
  exact ⟨(s2, head2), h3, ⟨h4.inv h.inv, h4.limits h.lim, h5⟩, h4⟩

theorem startDelayedSustain_ok (l : Nat) (d : Int) (sh : E × Option Nat) (h : HOk c sh) :
    ∃ sh', startDelayedSustain c l d sh = some sh' ∧ HOk c sh' ∧
      VReach c.toEnv (fun _ => True) sh.1.vm sh'.1.vm := by
  obtain ⟨s, head⟩ := sh
  unfold startDelayedSustain
  simp only
  split
  · exact ⟨_, rfl, ⟨h.inv, h.lim, h.head⟩, .refl _⟩
  · obtain ⟨sh', h1, h2, h3⟩ := startReleases_ok l d (s, head) (s.layers l).delayedSustain h
    rw [h1]
    exact ⟨_, rfl, ⟨h2.inv, h2.lim, h2.head⟩, h3⟩

theorem startDelayedSostenuto_ok (l : Nat) (d : Int) (sh : E × Option Nat) (h : HOk c sh) :
    ∃ sh', startDelayedSostenuto c l d sh = some sh' ∧ HOk c sh' ∧
      VReach c.toEnv (fun _ => True) sh.1.vm sh'.1.vm := by
  obtain ⟨s, head⟩ := sh
  unfold startDelayedSostenuto
  simp only
  split
  · exact ⟨_, rfl, ⟨h.inv, h.lim, h.head⟩, .refl _⟩
  · obtain ⟨sh', h1, h2, h3⟩ := startReleases_ok l d (s, head) (s.layers l).delayedSostenuto h
    rw [h1]
    exact ⟨_, rfl, ⟨h2.inv, h2.lim, h2.head⟩, h3⟩

theorem sustainLift_ok (d : Int) (cc : Nat) (v : ℚ) (sh : E × Option Nat) (l : Nat) (h : HOk c sh) :
    ∃ sh', sustainLift c d cc v sh l = some sh' ∧ HOk c sh' ∧ VReach c.toEnv (fun _ => True) sh.1.vm sh'.1.vm := by
  unfold sustainLift
  simp only
  split
  · exact startDelayedSustain_ok l d sh h
  · exact ⟨sh, rfl, h, .refl _⟩

theorem sostenutoLift_ok (d : Int) (cc : Nat) (v : ℚ) (sh : E × Option Nat) (l : Nat) (h : HOk c sh) :
    ∃ sh', sostenutoLift c d cc v sh l = some sh' ∧ HOk c sh' ∧ VReach c.toEnv (fun _ => True) sh.1.vm sh'.1.vm := by
  unfold sostenutoLift
  simp only
  split
  · split
    · exact ⟨_, rfl, ⟨h.inv, h.lim, h.head⟩, .refl _⟩
    · exact startDelayedSostenuto_ok l d sh h
  · exact ⟨sh, rfl, h, .refl _⟩

theorem ccPedals_ok (d : Int) (cc : Nat) (v : ℚ) (sh : E × Option Nat) (l : Nat) (h : HOk c sh) :
    ∃ sh', ccPedals c d cc v sh l = some sh' ∧ HOk c sh' ∧ VReach c.toEnv (fun _ => True) sh.1.vm sh'.1.vm := by
  obtain ⟨sh1, h1, h2, h3⟩ := sustainLift_ok d cc v sh l h
  obtain ⟨sh2, h4, h5, h6⟩ := sostenutoLift_ok d cc v sh1 l h2
  exact ⟨sh2, by simp [ccPedals, h1, h4], h5, h3.trans h6⟩

theorem ccLayer_ok (d : Int) (cc : Nat) (v u : ℚ) (arg : Int) (sh : E × Option Nat) (l : Nat) (h : HOk c sh) :
    ∃ sh', ccLayer c d cc v u arg sh l = some sh' ∧ HOk c sh' ∧ VReach c.toEnv (fun _ => True) sh.1.vm sh'.1.vm := by
  obtain ⟨sh1, h1, h2, h3⟩ := ccPedals_ok d cc v sh l h
  obtain ⟨s, head⟩ := sh1
  unfold ccLayer
  rw [h1]
  simp only [Option.bind_eq_bind, Option.bind_some]
  generalize Layer.registerCC (c.regions l) s.midi (s.layers l) cc v u arg = reg
  obtain ⟨ls, fire⟩ := reg
  simp only
  split
  · obtain ⟨sh2, h4, h5, h6⟩ := chokeAndStart_ok (setLayer s l ls) l d cc true
      { type := .cc, number := cc, value := v } head ⟨h2.inv, h2.lim, h2.head⟩
    exact ⟨sh2, h4, h5, h3.trans h6⟩
  · exact ⟨_, rfl, ⟨h2.inv, h2.lim, h2.head⟩, h3⟩

theorem ccDispatch_ok (s : E) (d : Int) (cc : Nat) (v : ℚ) (arg : Int) (hi : VInv c.toEnv s.vm)
    (hl : LimitsOk c.toEnv s.vm) :
    ∃ s', ccDispatch c s d cc v arg = some s' ∧ VReach c.toEnv (fun _ => True) s.vm s'.vm := by
  unfold ccDispatch
  simp only
  obtain ⟨sh, h1, _, h3⟩ := foldlM_ok (ccLayer c d cc v (c.rand s.draws) arg) (HOk c)
    (fun a b => VReach c.toEnv (fun _ => True) a.1.vm b.1.vm) (fun _ => .refl _) (fun _ _ _ => .trans)
    (fun sh l h => ccLayer_ok d cc v (c.rand s.draws) arg sh l h) (ccLayers c cc) (draw s, none)
    ⟨hi, hl, by simp⟩
  exact ⟨sh.1, by rw [h1]; rfl, h3⟩

end Verif.Engine
