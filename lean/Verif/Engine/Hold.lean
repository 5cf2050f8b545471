import Verif.Engine.CoreStep

/-! What a dispatch does to the record of each playing voice. -/
namespace Verif.Engine

open Verif.Layer (Region)

/-- Every playing voice satisfies `Q`. -/
def Hold (Q : Nat → Voice → Prop) (s : VM) : Prop :=
  ∀ i, i < s.size → (s.voices i).state = .playing → Q i (s.voices i)

/-- Only the record of voice `i` is written. -/
structure Writes (s s' : VM) (i : Nat) (v : Voice) : Prop where
  voices : s'.voices = Midi.upd s.voices i v
  size : s'.size = s.size

theorem upd_upd {α : Type*} (f : Nat → α) (i : Nat) (v w : α) : Midi.upd (Midi.upd f i v) i w = Midi.upd f i w := by
  funext j; simp only [Midi.upd]; split <;> rfl

theorem upd_self {α : Type*} (f : Nat → α) (i : Nat) : Midi.upd f i (f i) = f := by
  funext j; simp only [Midi.upd]; split
  · rename_i h; rw [h]
  · rfl

theorem Writes.at {s s' : VM} {i : Nat} {v : Voice} (h : Writes s s' i v) : s'.voices i = v := by
  rw [h.voices]; simp [Midi.upd]

theorem Writes.other {s s' : VM} {i j : Nat} {v : Voice} (h : Writes s s' i v) (hj : j ≠ i) : s'.voices j = s.voices j := by
  rw [h.voices]; simp [Midi.upd, hj]

theorem Writes.refl (s : VM) (i : Nat) : Writes s s i (s.voices i) := ⟨(upd_self _ _).symm, rfl⟩

theorem Writes.trans {a b d : VM} {i : Nat} {v w : Voice} (h : Writes a b i v) (h' : Writes b d i w) : Writes a d i w :=
  ⟨by rw [h'.voices, h.voices, upd_upd], h'.size.trans h.size⟩

theorem Hold.write {Q : Nat → Voice → Prop} {s s' : VM} {i : Nat} {v : Voice} (h : Hold Q s) (hw : Writes s s' i v)
    (hv : i < s.size → v.state = .playing → Q i v) : Hold Q s' := by
  intro j hj hp
  rw [hw.size] at hj
  by_cases hji : j = i
  · subst hji; rw [hw.at] at hp ⊢; exact hv hj hp
  · rw [hw.other hji] at hp ⊢; exact h j hj hp

theorem Hold.same {Q : Nat → Voice → Prop} {s s' : VM} (h : Hold Q s) (hv : s'.voices = s.voices) (hz : s'.size = s.size) :
    Hold Q s' := by
  intro i hi hp
  rw [hz] at hi; rw [hv] at hp ⊢
  exact h i hi hp

/-- A released voice. -/
def releaseRec (v : Voice) (d : Int) : Voice :=
  if v.state ≠ .playing then v
  else { v with state := if v.egDelay > d then .cleanMeUp else v.state, released := true }

/-- A voice turned off. -/
def offRec (v : Voice) (d : Int) : Voice := releaseRec { v with offed := true } d

theorem release_writes (s : VM) (i : Nat) (d : Int) : Writes s (release s i d) i (releaseRec (s.voices i) d) := by
  unfold release releaseRec
  simp only
  split
  · exact Writes.refl s i
  · exact ⟨rfl, rfl⟩

theorem off_writes {s s' : VM} {i : Nat} {d : Int} (h : off s i d = some s') : Writes s s' i (offRec (s.voices i) d) := by
  unfold off at h
  cases hl : (s.voices i).layer with
  | none => rw [hl] at h; cases h
  | some l =>
    rw [hl] at h
    cases h
    have h1 : Writes s (setVoice s i { s.voices i with offed := true }) i { s.voices i with offed := true } := ⟨rfl, rfl⟩
    have h2 := release_writes (setVoice s i { s.voices i with offed := true }) i d
    rw [setVoice_self] at h2
    exact h1.trans h2

theorem switchState_writes {e : Env} {s s' : VM} {i : Nat} {st : VState} (h : switchState e s i st = some s') :
    Writes s s' i { s.voices i with state := st } := by
  unfold switchState at h
  split at h
  · rename_i hst
    cases h
    have : ({ s.voices i with state := st } : Voice) = s.voices i := by rw [hst]
    rw [this]; exact Writes.refl s i
  · simp only at h
    cases st with
    | cleanMeUp => cases h; exact ⟨rfl, rfl⟩
    | idle =>
      simp only at h
      split at h
      · cases h
      · cases h; exact ⟨rfl, rfl⟩
    | playing =>
      simp only at h
      split at h
      · cases h
      · cases h; exact ⟨rfl, rfl⟩

theorem reset_writes {e : Env} {s s' : VM} {i : Nat} (h : reset e s i = some s') : Writes s s' i (cleared (s.voices i)) := by
  unfold reset at h
  rw [Option.bind_eq_bind, Option.bind_eq_some_iff] at h
  obtain ⟨s1, h1, h2⟩ := h
  have hw := switchState_writes h1
  cases h2
  refine ⟨?_, hw.size⟩
  show Midi.upd s1.voices i _ = _
  rw [hw.at, hw.voices, upd_upd]
  rfl

/-- The record of a voice once started (when it does start). -/
def startRec (e : Env) (m : Midi.State) (l : Nat) (d : Int) (t : Trig) (v : Voice) : Voice :=
  ready e m l d { timed e m l d (armed e m l t v) with state := .playing }

theorem voiceStart_writes {e : Env} {s s' : VM} {m : Midi.State} {i l : Nat} {d : Int} {t : Trig} {ok : Bool}
    (h : voiceStart e s m i l d t = some (s', ok)) :
    ∃ v, Writes s s' i v ∧ (v.state = .cleanMeUp ∧ ok = false ∨
      v = startRec e m l (if d < 0 then 0 else d) t (s.voices i) ∧ ok = true) := by
  unfold voiceStart at h
  simp only at h
  have h0 : Writes s (setVoice s i (armed e m l t (s.voices i))) i (armed e m l t (s.voices i)) := ⟨rfl, rfl⟩
  split at h
  · rw [Option.bind_eq_bind, Option.bind_eq_some_iff] at h
    obtain ⟨s1, h1, h2⟩ := h
    cases h2
    exact ⟨_, h0.trans (switchState_writes h1), Or.inl ⟨rfl, rfl⟩⟩
  · rw [Option.bind_eq_bind, Option.bind_eq_some_iff] at h
    obtain ⟨s1, h1, h2⟩ := h
    have h3 := switchState_writes h1
    simp only [setVoice_self] at h3
    generalize (if d < 0 then 0 else d) = d' at *
    have h4 : Writes s s1 i { timed e m l d' (armed e m l t (s.voices i)) with state := .playing } :=
      h0.trans (Writes.trans (b := setVoice (setVoice s i (armed e m l t (s.voices i))) i (timed e m l d' (armed e m l t (s.voices i))))
        (v := timed e m l d' (armed e m l t (s.voices i))) ⟨rfl, rfl⟩ h3)
    split at h2
    · rw [Option.bind_eq_some_iff] at h2
      obtain ⟨s2, h5, h6⟩ := h2
      cases h6
      exact ⟨_, h4.trans (switchState_writes h5), Or.inl ⟨rfl, rfl⟩⟩
    · cases h2
      refine ⟨ready e m l d' (s1.voices i), h4.trans ⟨rfl, rfl⟩, Or.inr ⟨?_, rfl⟩⟩
      rw [h4.at]; rfl

/-- `Q` survives being turned off. -/
def OffClosed (Q : Nat → Voice → Prop) : Prop :=
  ∀ i v d, v.state = .playing → Q i v → (offRec v d).state = .playing → Q i (offRec v d)

theorem offRec_playing {v : Voice} {d : Int} (h : (offRec v d).state = .playing) : v.state = .playing := by
  unfold offRec releaseRec at h
  simp only at h
  split at h
  · rename_i hc; exact absurd h hc
  · rename_i hc; simpa using hc

theorem Hold.off {Q : Nat → Voice → Prop} (hQ : OffClosed Q) {s s' : VM} {i : Nat} {d : Int} (h : Hold Q s)
    (ho : off s i d = some s') : Hold Q s' :=
  h.write (off_writes ho) (fun hi hp => hQ _ _ _ (offRec_playing hp) (h i hi (offRec_playing hp)) hp)

theorem Hold.foldlM {Q : Nat → Voice → Prop} {α : Type*} (f : VM → α → Option VM)
    (hf : ∀ a s s', Hold Q s → f s a = some s' → Hold Q s') : ∀ (L : List α) (s s' : VM), Hold Q s → L.foldlM f s = some s' →
      Hold Q s' := by
  intro L
  induction L with
  | nil => intro s s' h h'; cases h'; exact h
  | cons a tl ih =>
    intro s s' h h'
    rw [List.foldlM_cons, Option.bind_eq_bind, Option.bind_eq_some_iff] at h'
    obtain ⟨s1, h1, h2⟩ := h'
    exact ih s1 s' (hf a s s1 h h1) h2

theorem Hold.offAllSisters {Q : Nat → Voice → Prop} (hQ : OffClosed Q) {s s' : VM} {o : Option Nat} {d : Int} (h : Hold Q s)
    (ho : offAllSisters s o d = some s') : Hold Q s' := by
  unfold Engine.offAllSisters at ho
  cases o with
  | none => cases ho; exact h
  | some i =>
    simp only at ho
    rw [Option.bind_eq_bind, Option.bind_eq_some_iff] at ho
    obtain ⟨ring, _, h2⟩ := ho
    exact Hold.foldlM _ (fun a s s' h h' => h.off hQ h') ring s s' h h2

theorem Hold.limitVoices {Q : Nat → Voice → Prop} (hQ : OffClosed Q) {e : Env} {s s' : VM} {L : List Nat} {n : Nat} {d : Int}
    (h : Hold Q s) (ho : limitVoices e s L n d = some s') : Hold Q s' := by
  unfold Engine.limitVoices at ho
  rw [Option.bind_eq_bind, Option.bind_eq_some_iff] at ho
  obtain ⟨o, _, h2⟩ := ho
  exact h.offAllSisters hQ h2

theorem Hold.noteLoop {Q : Nat → Voice → Prop} (hQ : OffClosed Q) {d : Int} {target : Nat} : ∀ (L : List Nat) (n : Nat) (s s' : VM),
    Hold Q s → noteLoop s d target L n = some s' → Hold Q s' := by
  intro L
  induction L with
  | nil => intro n s s' h h'; cases h'; exact h
  | cons a tl ih =>
    intro n s s' h h'
    unfold Engine.noteLoop at h'
    split at h'
    · simp only [Option.bind_eq_bind] at h'
      by_cases hf : offedOrFree s a = true
      · rw [if_pos hf] at h'
        exact ih _ s s' h h'
      · rw [if_neg hf, Option.bind_eq_some_iff] at h'
        obtain ⟨s1, h1, h2⟩ := h'
        exact ih _ s1 s' (h.offAllSisters hQ h1) h2
    · cases h'; exact h

theorem Hold.checkPolyphony {Q : Nat → Voice → Prop} (hQ : OffClosed Q) {e : Env} {s s' : VM} {l : Nat} {d : Int} {t : Trig}
    (h : Hold Q s) (ho : checkPolyphony e s l d t = some s') : Hold Q s' := by
  unfold Engine.checkPolyphony at ho
  simp only [Option.bind_eq_bind, Option.bind_eq_some_iff] at ho
  obtain ⟨s1, h1, s2, h2, s3, h3, s4, h4, h5⟩ := ho
  have k1 : Hold Q s1 := by
    unfold checkNotePolyphony at h1
    split at h1
    · cases h1; exact h
    · exact h.noteLoop hQ _ _ _ _ h1
  have k2 : Hold Q s2 := k1.limitVoices hQ h2
  have k3 : Hold Q s3 := k2.limitVoices hQ h3
  have k4 : Hold Q s4 := by
    unfold checkSetPolyphony at h4
    exact Hold.foldlM _ (fun a s s' h h' => h.limitVoices hQ h') _ s3 s4 k3 h4
  exact k4.limitVoices hQ h5

theorem addToRing_voices (s : VM) (head : Option Nat) (i : Nat) :
    (addToRing s head i).1.voices = s.voices ∧ (addToRing s head i).1.size = s.size := ⟨rfl, rfl⟩

theorem Hold.startVoice {Q : Nat → Voice → Prop} (hQ : OffClosed Q) {e : Env} {s s' : VM} {m : Midi.State} {l : Nat} {d : Int}
    {t : Trig} {head head' : Option Nat} (h : Hold Q s)
    (hs : ∀ i v d', Q i (startRec e m l d' t (cleared v)))
    (ho : startVoice e s m l d t head = some (s', head')) : Hold Q s' := by
  unfold Engine.startVoice at ho
  rw [Option.bind_eq_bind, Option.bind_eq_some_iff] at ho
  obtain ⟨s1, h1, h2⟩ := ho
  have k1 := h.checkPolyphony hQ h1
  cases hf : findFreeVoice s1 with
  | none => rw [hf] at h2; cases h2; exact k1
  | some i =>
    rw [hf] at h2
    simp only [Option.bind_eq_bind, Option.bind_eq_some_iff] at h2
    obtain ⟨s2, h3, ⟨s3, ok⟩, h4, h5⟩ := h2
    have w2 := reset_writes h3
    obtain ⟨v, w3, hv⟩ := voiceStart_writes h4
    have k3 : Hold Q s3 := by
      refine k1.write (w2.trans w3) (fun _ hp => ?_)
      rcases hv with ⟨hv, _⟩ | ⟨hv, _⟩
      · rw [hv] at hp; cases hp
      · rw [hv, w2.at]; exact hs _ _ _
    simp only [Option.pure_def, Option.some.injEq] at h5
    cases ok with
    | true =>
      simp only [if_true] at h5
      have : s' = (addToRing s3 head i).1 := by rw [h5]
      rw [this]
      exact k3.same (addToRing_voices s3 head i).1 (addToRing_voices s3 head i).2
    | false =>
      simp only [Bool.false_eq_true, if_false, Prod.mk.injEq] at h5
      rw [← h5.1]; exact k3

variable {c : Cfg}

/-- `Q` holds of every voice started by events of the types `T`. -/
def StartClosed (c : Cfg) (m : Midi.State) (T : EvType → Prop) (Q : Nat → Voice → Prop) : Prop :=
  ∀ i l d t v, T t.type → Q i (startRec c.toEnv m l d t (cleared v))

theorem Hold.offs {Q : Nat → Voice → Prop} (hQ : OffClosed Q) {s s' : E} (ho : Offs c s s')
    (hs : StartClosed c s.midi (· = .noteOff) Q) (h : Hold Q s.vm) : Hold Q s'.vm := by
  induction ho with
  | refl => exact h
  | @tail a b h1 h2 ih =>
    have hm := (Offs.frame h1).1
    cases h2 with
    | choke i d vm h => exact ih.off hQ h
    | start l d note v head head' vm h => exact ih.startVoice hQ (fun i v d' => by rw [hm]; exact hs _ _ _ _ _ rfl) h
    | register l note v u h => exact ih
    | up l note h => exact ih
    | down l note h => exact ih
    | draw => exact ih

theorem Hold.chokeAndStart {Q : Nat → Voice → Prop} (hQ : OffClosed Q) {s : E} {l : Nat} {d n : Int} {b : Bool} {t : Trig}
    {head : Option Nat} {sh : E × Option Nat} {f : Nat} (T : EvType → Prop) (hT : T .noteOff ∧ T t.type)
    (hs : StartClosed c s.midi T Q) (h : Hold Q s.vm)
    (ho : (checkOffGroups c (noteOffDispatch c f) (c.regions l) d n b s).bind (fun s => start c s l d t head) = some sh) :
    Hold Q sh.1.vm := by
  rw [Option.bind_eq_some_iff] at ho
  obtain ⟨s1, h1, h2⟩ := ho
  obtain ⟨s2, head'⟩ := sh
  obtain ⟨vm, h3, rfl⟩ := start_eq h2
  have ha := checkOffGroups_atoms (noteOffDispatch_atoms f) h1
  have k1 := h.offs hQ ha (fun i l d t v ht => hs i l d t v (by rw [ht]; exact hT.1))
  exact k1.startVoice hQ (fun i v d' => by rw [ha.frame.1]; exact hs _ _ _ _ _ hT.2) h3

theorem Hold.noteOnDispatch {Q : Nat → Voice → Prop} (hQ : OffClosed Q) {s s' : E} {d n : Int} {v : ℚ}
    (hs : StartClosed c s.midi (· = .noteOff) Q)
    (hs' : ∀ i l d' w, Q i (startRec c.toEnv s.midi l d' { type := .noteOn, number := n, value := v } (cleared w)))
    (h : Hold Q s.vm) (ho : noteOnDispatch c s d n v = some s') : Hold Q s'.vm := by
  unfold Engine.noteOnDispatch at ho
  simp only at ho
  rw [Option.bind_eq_bind, Option.bind_eq_some_iff] at ho
  obtain ⟨sh, h1, h2⟩ := ho
  cases h2
  rw [updatePrevious_vm]
  have key : ∀ (L : List Nat) (sh sh' : E × Option Nat), sh.1.midi = s.midi → Hold Q sh.1.vm →
      L.foldlM (noteOnLayer c d n v (c.rand s.draws)) sh = some sh' → Hold Q sh'.1.vm := by
    intro L
    induction L with
    | nil => intro sh sh' _ h h'; cases h'; exact h
    | cons a tl ih =>
      intro sh sh' hm h h'
      rw [List.foldlM_cons, Option.bind_eq_bind, Option.bind_eq_some_iff] at h'
      obtain ⟨sh1, g1, g2⟩ := h'
      have hm1 := (noteOnLayer_core g1).1.1
      refine ih sh1 sh' (hm1.trans hm) ?_ g2
      obtain ⟨s0, head⟩ := sh
      unfold noteOnLayer at g1
      simp only at g1 hm h
      split at g1
      · rw [Option.bind_eq_bind, Option.bind_eq_some_iff] at g1
        obtain ⟨s2, q1, q2⟩ := g1
        obtain ⟨s3, head'⟩ := sh1
        obtain ⟨vm, q3, rfl⟩ := start_eq q2
        have ha := checkOffGroups_atoms (noteOffDispatch_atoms _) q1
        have hm2 : s2.midi = s.midi := ha.frame.1.trans hm
        have k1 : Hold Q s2.vm := Hold.offs hQ ha (by rw [show (setLayer s0 a _).midi = s.midi from hm]; exact hs) h
        exact k1.startVoice hQ (fun i w d' => by rw [hm2]; exact hs' _ _ _ _) q3
      · cases g1; exact h
  refine key _ _ _ ?_ ?_ h1
  · exact (noteOnSwitches_frame (draw s) n).1
  · simp only [noteOnSwitches_vm]; exact h

theorem Hold.startReleases {Q : Nat → Voice → Prop} (hQ : OffClosed Q) {l : Nat} {d : Int} (L : List (Int × ℚ)) :
    ∀ (sh sh' : E × Option Nat), StartClosed c sh.1.midi (· = .noteOff) Q → Hold Q sh.1.vm →
      startReleases c l d sh L = some sh' → Hold Q sh'.1.vm := by
  unfold Engine.startReleases
  induction L with
  | nil => intro sh sh' _ h h'; cases h'; exact h
  | cons a tl ih =>
    intro sh sh' hs h h'
    rw [List.foldlM_cons, Option.bind_eq_bind, Option.bind_eq_some_iff] at h'
    obtain ⟨⟨s1, hd⟩, g1, g2⟩ := h'
    obtain ⟨vm, q3, rfl⟩ := start_eq g1
    refine ih _ sh' ?_ ?_ g2
    · exact hs
    · exact h.startVoice hQ (fun i v d' => hs _ _ _ _ _ rfl) q3

theorem Hold.ccPedals {Q : Nat → Voice → Prop} (hQ : OffClosed Q) {d : Int} {cc : Nat} {v : ℚ} {sh sh' : E × Option Nat} {l : Nat}
    (hs : StartClosed c sh.1.midi (· = .noteOff) Q) (h : Hold Q sh.1.vm)
    (ho : ccPedals c d cc v sh l = some sh') : Hold Q sh'.1.vm := by
  unfold Engine.ccPedals at ho
  rw [Option.bind_eq_bind, Option.bind_eq_some_iff] at ho
  obtain ⟨sh1, h1, h2⟩ := ho
  have a1 : Hold Q sh1.1.vm ∧ sh1.1.midi = sh.1.midi := by
    unfold sustainLift at h1
    simp only at h1
    split at h1
    · unfold startDelayedSustain at h1
      simp only at h1
      split at h1
      · cases h1; exact ⟨h, rfl⟩
      · rw [Option.bind_eq_bind, Option.bind_eq_some_iff] at h1
        obtain ⟨sh2, h3, h4⟩ := h1
        cases h4
        have k := Hold.startReleases hQ (sh.1.layers l).delayedSustain (sh.1, sh.2) sh2 hs h h3
        exact ⟨k, (startReleases_core h3).1⟩
    · cases h1; exact ⟨h, rfl⟩
  unfold sostenutoLift at h2
  simp only at h2
  split at h2
  · split at h2
    · cases h2; exact a1.1
    · unfold startDelayedSostenuto at h2
      simp only at h2
      split at h2
      · cases h2; exact a1.1
      · rw [Option.bind_eq_bind, Option.bind_eq_some_iff] at h2
        obtain ⟨sh2, h3, h4⟩ := h2
        cases h4
        have hs1 : StartClosed c sh1.1.midi (· = .noteOff) Q := by rw [a1.2]; exact hs
        exact Hold.startReleases hQ (sh1.1.layers l).delayedSostenuto (sh1.1, sh1.2) sh2 hs1 a1.1 h3
  · cases h2; exact a1.1

theorem Hold.ccDispatch {Q : Nat → Voice → Prop} (hQ : OffClosed Q) {s s' : E} {d : Int} {cc : Nat} {v : ℚ} {arg : Int}
    (hs : StartClosed c s.midi (fun t => t = .noteOff ∨ t = .cc) Q) (h : Hold Q s.vm)
    (ho : ccDispatch c s d cc v arg = some s') : Hold Q s'.vm := by
  unfold Engine.ccDispatch at ho
  simp only at ho
  rw [Option.bind_eq_bind, Option.bind_eq_some_iff] at ho
  obtain ⟨sh, h1, h2⟩ := ho
  cases h2
  have key : ∀ (L : List Nat) (sh sh' : E × Option Nat), sh.1.midi = s.midi → Hold Q sh.1.vm →
      L.foldlM (ccLayer c d cc v (c.rand s.draws) arg) sh = some sh' → Hold Q sh'.1.vm := by
    intro L
    induction L with
    | nil => intro sh sh' _ h h'; cases h'; exact h
    | cons a tl ih =>
      intro sh sh' hm h h'
      rw [List.foldlM_cons, Option.bind_eq_bind, Option.bind_eq_some_iff] at h'
      obtain ⟨sh1, g1, g2⟩ := h'
      have hm1 := (ccLayer_core g1).1.1
      refine ih sh1 sh' (hm1.trans hm) ?_ g2
      unfold ccLayer at g1
      rw [Option.bind_eq_bind, Option.bind_eq_some_iff] at g1
      obtain ⟨⟨s0, head⟩, p1, p2⟩ := g1
      have k0 : Hold Q s0.vm := Hold.ccPedals hQ (by
        rw [hm]; intro i l d t v ht; exact hs i l d t v (Or.inl ht)) h p1
      have hm0 : s0.midi = s.midi := (ccPedals_core p1).1.trans hm
      simp only at p2
      split at p2
      · refine Hold.chokeAndStart hQ (fun t => t = .noteOff ∨ t = .cc) ⟨Or.inl rfl, Or.inr rfl⟩ ?_ ?_ p2
        · show StartClosed c s0.midi _ Q
          rw [hm0]; exact hs
        · exact k0
      · cases p2; exact k0
  exact key (ccLayers c cc) (draw s, none) sh rfl h h1

/-! ### Loops over voices -/

/-- A step that changes the record of its own voice only, by `g`. -/
def OwnStep (f : VM → Nat → VM) (g : Voice → Voice) : Prop := ∀ s i, Writes s (f s i) i (g (s.voices i))

theorem eachVoice_voices {f : VM → Nat → VM} {g : Voice → Voice} (hf : OwnStep f g) (s : E) :
    (eachVoice f s).vm.size = s.vm.size ∧ ∀ i, (eachVoice f s).vm.voices i = if i < s.vm.size then g (s.vm.voices i) else s.vm.voices i := by
  have key : ∀ (L : List Nat) (vm : VM), L.Nodup → (L.foldl f vm).size = vm.size ∧
      ∀ i, (L.foldl f vm).voices i = if i ∈ L then g (vm.voices i) else vm.voices i := by
    intro L
    induction L with
    | nil => intro vm _; exact ⟨rfl, fun i => by simp⟩
    | cons a tl ih =>
      intro vm hn
      obtain ⟨hat, hn'⟩ := List.nodup_cons.mp hn
      obtain ⟨h1, h2⟩ := ih (f vm a) hn'
      have hw := hf vm a
      rw [List.foldl_cons]
      refine ⟨h1.trans hw.size, fun i => ?_⟩
      rw [h2 i]
      by_cases hia : i = a
      · subst hia; rw [if_neg hat, hw.at, if_pos (by simp)]
      · rw [hw.other hia]; simp [hia]
  obtain ⟨h1, h2⟩ := key (List.range s.vm.size) s.vm List.nodup_range
  exact ⟨h1, fun i => by rw [show (eachVoice f s).vm.voices i = _ from h2 i]; simp⟩

/-- A voice whose key is up. -/
def keyUp (v : Voice) : Voice := { v with noteIsOff := true }

/-- A note-off as seen by a voice. -/
def noteOffRec (e : Env) (d n : Int) (v : Voice) : Voice :=
  match v.layer with
  | none => v
  | some l =>
    if v.state ≠ .playing then v
    else if v.trig.number = n ∧ v.trig.type = .noteOn then
      (if (e.regions l).oneShot then keyUp v
       else if pedalsUp (e.regions l) (keyUp v) then releaseRec (keyUp v) d else keyUp v)
    else v

theorem voiceNoteOff_own (e : Env) (d n : Int) : OwnStep (fun vm i => voiceNoteOff e vm i d n) (noteOffRec e d n) := by
  intro s i
  show Writes s (voiceNoteOff e s i d n) i _
  have heq : voiceNoteOff e s i d n = (match (s.voices i).layer with
      | none => s
      | some l =>
        if (s.voices i).state ≠ .playing then s
        else if (s.voices i).trig.number = n ∧ (s.voices i).trig.type = .noteOn then
          (if (e.regions l).oneShot then setVoice s i (keyUp (s.voices i))
          else if pedalsUp (e.regions l) ((setVoice s i (keyUp (s.voices i))).voices i) then release (setVoice s i (keyUp (s.voices i))) i d
          else setVoice s i (keyUp (s.voices i)))
        else s) := rfl
  rw [heq]
  unfold noteOffRec
  simp only [setVoice_self]
  cases hl : (s.voices i).layer with
  | none => exact Writes.refl s i
  | some l =>
    simp only
    split
    · exact Writes.refl s i
    split
    · have h1 : Writes s (setVoice s i (keyUp (s.voices i))) i (keyUp (s.voices i)) := ⟨rfl, rfl⟩
      split
      · exact h1
      split
      · have h2 := release_writes (setVoice s i (keyUp (s.voices i))) i d
        rw [setVoice_self] at h2
        exact h1.trans h2
      · exact h1
    · exact Writes.refl s i

/-- The record after the pedals have been told and the release has been decided. -/
def pedalRec (r : Region) (d : Int) (cc : Nat) (x : ℚ) (v : Voice) : Voice :=
  if (voiceSustain r (voiceSostenuto r v cc x) cc x).noteIsOff && !r.oneShot
      && pedalsUp r (voiceSustain r (voiceSostenuto r v cc x) cc x)
  then releaseRec (voiceSustain r (voiceSostenuto r v cc x) cc x) d
  else voiceSustain r (voiceSostenuto r v cc x) cc x

/-- The pedal cancels a release. -/
def cancels (e : Env) (r : Region) (v : Voice) : Bool :=
  r.checkSustain && v.sustaining && e.sustainCancelsRelease && isReleased v
    && decide (r.trigger ≠ .release) && decide (r.trigger ≠ .releaseKey)

/-- A controller as seen by a voice. -/
def ccRec (e : Env) (d : Int) (cc : Nat) (x : ℚ) (v : Voice) : Voice :=
  match v.layer with
  | none => v
  | some l =>
    if v.state ≠ .playing then v
    else if cc ≠ (e.regions l).sustainCC ∧ cc ≠ (e.regions l).sostenutoCC then v
    else if cancels e (e.regions l) (pedalRec (e.regions l) d cc x v)
      then { pedalRec (e.regions l) d cc x v with released := false }
      else pedalRec (e.regions l) d cc x v

theorem voiceCC_own (e : Env) (d : Int) (cc : Nat) (x : ℚ) : OwnStep (fun vm i => voiceCC e vm i d cc x) (ccRec e d cc x) := by
  intro s i
  unfold ccRec voiceCC
  simp only
  cases hl : (s.voices i).layer with
  | none => exact Writes.refl s i
  | some l =>
    simp only
    split
    · exact Writes.refl s i
    split
    · exact Writes.refl s i
    · generalize hr : e.regions l = r
      have h2 : Writes s (if ((setVoice s i (voiceSustain r (voiceSostenuto r (s.voices i) cc x) cc x)).voices i).noteIsOff
            && !r.oneShot && pedalsUp r ((setVoice s i (voiceSustain r (voiceSostenuto r (s.voices i) cc x) cc x)).voices i)
          then release (setVoice s i (voiceSustain r (voiceSostenuto r (s.voices i) cc x) cc x)) i d
          else setVoice s i (voiceSustain r (voiceSostenuto r (s.voices i) cc x) cc x)) i (pedalRec r d cc x (s.voices i)) := by
        unfold pedalRec
        simp only [setVoice_self]
        generalize voiceSustain r (voiceSostenuto r (s.voices i) cc x) cc x = w
        have h1 : Writes s (setVoice s i w) i w := ⟨rfl, rfl⟩
        split
        · have h2 := release_writes (setVoice s i w) i d
          rw [setVoice_self] at h2
          exact h1.trans h2
        · exact h1
      generalize (if ((setVoice s i (voiceSustain r (voiceSostenuto r (s.voices i) cc x) cc x)).voices i).noteIsOff
            && !r.oneShot && pedalsUp r ((setVoice s i (voiceSustain r (voiceSostenuto r (s.voices i) cc x) cc x)).voices i)
          then release (setVoice s i (voiceSustain r (voiceSostenuto r (s.voices i) cc x) cc x)) i d
          else setVoice s i (voiceSustain r (voiceSostenuto r (s.voices i) cc x) cc x)) = s2 at h2 ⊢
      unfold cancels
      rw [h2.at]
      generalize hw : pedalRec r d cc x (s.voices i) = w at h2 ⊢
      split
      · exact h2.trans ⟨rfl, rfl⟩
      · exact h2


theorem OwnStep.foldl {α : Type*} {f : α → VM → Nat → VM} {g : α → Voice → Voice} (h : ∀ a, OwnStep (f a) (g a)) (L : List α) :
    OwnStep (fun vm i => L.foldl (fun vm a => f a vm i) vm) (fun v => L.foldl (fun v a => g a v) v) := by
  intro s i
  induction L generalizing s with
  | nil => exact Writes.refl s i
  | cons a tl ih =>
    have h1 := h a s i
    have h2 := ih (f a s i)
    simp only [h1.at] at h2
    exact h1.trans h2

/-- `CC 121` as seen by a voice. -/
def resetRec (c : Cfg) (d : Int) (L : List Nat) (v : Voice) : Voice := L.foldl (fun v cc => ccRec c.toEnv d cc (c.defaultCC cc) v) v

theorem resetVoiceCCs_own (c : Cfg) (d : Int) :
    OwnStep (resetVoiceCCs c d) (resetRec c d (List.range Layer.numCCs)) := by
  unfold resetVoiceCCs resetRec
  generalize List.range Layer.numCCs = L
  exact OwnStep.foldl (f := fun cc vm i => voiceCC c.toEnv vm i d cc (c.defaultCC cc))
    (g := fun cc v => ccRec c.toEnv d cc (c.defaultCC cc) v) (fun cc => voiceCC_own _ _ _ _) L

/-- `Q` survives a function on records. -/
def Closed (Q : Nat → Voice → Prop) (g : Voice → Voice) : Prop :=
  ∀ i v, (v.state = .playing → Q i v) → (g v).state = .playing → Q i (g v)

theorem Hold.eachVoice' {Q Q' : Nat → Voice → Prop} {f : VM → Nat → VM} {g : Voice → Voice} (hf : OwnStep f g)
    (hg : ∀ i v, (v.state = .playing → Q i v) → (g v).state = .playing → Q' i (g v))
    {s : E} (h : Hold Q s.vm) : Hold Q' (eachVoice f s).vm := by
  obtain ⟨h1, h2⟩ := eachVoice_voices hf s
  intro i hi hp
  rw [h1] at hi
  rw [h2 i, if_pos hi] at hp ⊢
  exact hg i _ (h i hi) hp

theorem Hold.eachVoice {Q : Nat → Voice → Prop} {f : VM → Nat → VM} {g : Voice → Voice} (hf : OwnStep f g) (hg : Closed Q g)
    {s : E} (h : Hold Q s.vm) : Hold Q (eachVoice f s).vm := by
  obtain ⟨h1, h2⟩ := eachVoice_voices hf s
  intro i hi hp
  rw [h1] at hi
  rw [h2 i, if_pos hi] at hp ⊢
  exact hg i _ (h i hi) hp

theorem Closed.foldl {Q : Nat → Voice → Prop} {α : Type*} {g : α → Voice → Voice} (h : ∀ a, Closed Q (g a)) (L : List α) :
    Closed Q (fun v => L.foldl (fun v a => g a v) v) := by
  intro i v hv hp
  induction L generalizing v with
  | nil => exact hv hp
  | cons a tl ih => exact ih (g a v) (fun hp' => h a i v hv hp') hp

/-- No voice of an emptied list plays. -/
theorem resetAll_idle {e : Env} : ∀ (L : List Nat) (s s' : VM), L.foldlM (reset e) s = some s' →
    s'.size = s.size ∧ (∀ i ∈ L, (s'.voices i).state = .idle) ∧ ∀ i, i ∉ L → s'.voices i = s.voices i := by
  intro L
  induction L with
  | nil => intro s s' h; cases h; exact ⟨rfl, by simp, fun _ _ => rfl⟩
  | cons a tl ih =>
    intro s s' h
    rw [List.foldlM_cons, Option.bind_eq_bind, Option.bind_eq_some_iff] at h
    obtain ⟨s1, h1, h2⟩ := h
    have hw := reset_writes h1
    obtain ⟨k1, k2, k3⟩ := ih s1 s' h2
    refine ⟨k1.trans hw.size, ?_, ?_⟩
    · intro i hi
      by_cases hit : i ∈ tl
      · exact k2 i hit
      · have : i = a := by simpa [hit] using hi
        subst this
        rw [k3 i hit, hw.at]; rfl
    · intro i hi
      simp only [List.mem_cons, not_or] at hi
      rw [k3 i hi.2, hw.other hi.1]

theorem Hold.resetAll {Q : Nat → Voice → Prop} {e : Env} {s s' : E} (h : eachVoiceM (reset e) s = some s') : Hold Q s'.vm := by
  unfold eachVoiceM at h
  rw [Option.bind_eq_bind, Option.bind_eq_some_iff] at h
  obtain ⟨vm, h1, h2⟩ := h
  cases h2
  obtain ⟨k1, k2, _⟩ := resetAll_idle _ _ _ h1
  intro i hi hp
  have hi' : i < s.vm.size := by rw [← k1]; exact hi
  have := k2 i (List.mem_range.mpr hi')
  rw [show (({ s with vm := vm } : E).vm.voices i) = vm.voices i from rfl] at hp
  rw [this] at hp; cases hp

/-- What a block does to the record of voice `i`, when the voice does not end. -/
def renderRec (c : Cfg) (frames : Nat) (snd : Sound) (v : Voice) : Voice :=
  aged frames snd (match snd.sampleEnded with | some d => offRec v d | none => v)

/-- The voice after the block: freed, or aged. -/
theorem renderVoice_writes {frames : Nat} {snd : Nat → Sound} {s s' : VM} {i : Nat}
    (h : renderVoice c frames snd s i = some s') :
    ∃ v, Writes s s' i v ∧ (v = s.voices i ∧ (v.state = .idle ∨ v.layer = none ∨ ∃ l, v.layer = some l ∧ (c.regions l).disabled = true)
      ∨ v.state ≠ .playing ∨
      v = renderRec c frames (snd i) (s.voices i) ∧ (snd i).finished = false) := by
  unfold renderVoice at h
  split at h
  · rename_i hf
    cases h
    exact ⟨_, Writes.refl s i, Or.inl ⟨rfl, Or.inl (by simpa [isFree] using hf)⟩⟩
  · rw [Option.bind_eq_bind, Option.bind_eq_some_iff] at h
    obtain ⟨s1, h1, h2⟩ := h
    have key : ∃ v, Writes s s1 i v ∧ (v = s.voices i ∧ (v.state = .idle ∨ v.layer = none ∨ ∃ l, v.layer = some l ∧ (c.regions l).disabled = true) ∨ v.state ≠ .playing ∨
        v = renderRec c frames (snd i) (s.voices i) ∧ (snd i).finished = false) := by
      unfold voiceRender at h1
      cases hl : (s.voices i).layer with
      | none => rw [hl] at h1; cases h1; exact ⟨_, Writes.refl s i, Or.inl ⟨rfl, Or.inr (Or.inl hl)⟩⟩
      | some l =>
        rw [hl] at h1
        simp only at h1
        split at h1
        · rename_i hd
          cases h1; exact ⟨_, Writes.refl s i, Or.inl ⟨rfl, Or.inr (Or.inr ⟨l, hl, hd⟩)⟩⟩
        · simp only [Option.bind_eq_bind, Option.bind_eq_some_iff] at h1
          obtain ⟨s2, g1, s3, g2, g3⟩ := h1
          cases g3
          have w2 : Writes s s2 i (match (snd i).sampleEnded with | some d => offRec (s.voices i) d | none => s.voices i) := by
            unfold sampleStop at g1
            cases hs : (snd i).sampleEnded with
            | none => rw [hs] at g1; cases g1; exact Writes.refl s i
            | some d => rw [hs] at g1; exact off_writes g1
          unfold envelopeStop at g2
          split at g2
          · have w3 := switchState_writes g2
            refine ⟨aged frames (snd i) (s3.voices i), (w2.trans w3).trans ⟨rfl, rfl⟩, Or.inr (Or.inl ?_)⟩
            rw [w3.at]
            simp [aged]
          · rename_i hf
            cases g2
            refine ⟨aged frames (snd i) (s2.voices i), w2.trans ⟨rfl, rfl⟩, Or.inr (Or.inr ⟨?_, by simpa using hf⟩)⟩
            rw [w2.at]; rfl
    split at h2
    · have w := reset_writes h2
      obtain ⟨v, hw, _⟩ := key
      refine ⟨_, hw.trans w, Or.inr (Or.inl ?_)⟩
      simp [cleared]
    · cases h2; exact key

/-- The voices after a block. -/
theorem render_voices {frames : Nat} {snd : Nat → Sound} {s s' : E} (hpos : 1 ≤ frames) (h : render c s frames snd = some s') :
    s'.vm.size = s.vm.size ∧ ∀ i, i < s.vm.size → (s'.vm.voices i).state = .playing →
      (s.vm.voices i).state = .playing ∧
      (s'.vm.voices i = s.vm.voices i ∧ ((s.vm.voices i).layer = none ∨ ∃ l, (s.vm.voices i).layer = some l ∧ (c.regions l).disabled = true)
      ∨ s'.vm.voices i = renderRec c frames (snd i) (s.vm.voices i) ∧ (snd i).finished = false) := by
  unfold render at h
  rw [if_neg (by omega)] at h
  simp only [Option.bind_eq_bind, Option.bind_eq_some_iff] at h
  obtain ⟨s1, h1, h2⟩ := h
  cases h2
  unfold eachVoiceM at h1
  rw [Option.bind_eq_bind, Option.bind_eq_some_iff] at h1
  obtain ⟨vm, h1, h2⟩ := h1
  cases h2
  have key : ∀ (L : List Nat) (vm vm' : VM), L.Nodup → L.foldlM (renderVoice c frames snd) vm = some vm' → vm'.size = vm.size ∧
      (∀ i, i ∉ L → vm'.voices i = vm.voices i) ∧
      ∀ i ∈ L, (vm'.voices i).state = .playing →
        (vm'.voices i = vm.voices i ∧ ((vm.voices i).layer = none ∨ ∃ l, (vm.voices i).layer = some l ∧ (c.regions l).disabled = true)
        ∨ vm'.voices i = renderRec c frames (snd i) (vm.voices i) ∧ (snd i).finished = false) := by
    intro L
    induction L with
    | nil => intro vm vm' _ h; cases h; exact ⟨rfl, fun _ _ => rfl, by simp⟩
    | cons a tl ih =>
      intro vm vm' hn h
      obtain ⟨hat, hn'⟩ := List.nodup_cons.mp hn
      rw [List.foldlM_cons, Option.bind_eq_bind, Option.bind_eq_some_iff] at h
      obtain ⟨v1, g1, g2⟩ := h
      obtain ⟨v, hw, hv⟩ := renderVoice_writes g1
      obtain ⟨k1, k2, k3⟩ := ih v1 vm' hn' g2
      refine ⟨k1.trans hw.size, ?_, ?_⟩
      · intro i hi
        simp only [List.mem_cons, not_or] at hi
        rw [k2 i hi.2, hw.other hi.1]
      · intro i hi hp
        by_cases hia : i = a
        · subst hia
          rw [k2 i hat, hw.at] at hp ⊢
          rcases hv with ⟨rfl, hv | hv⟩ | hv | hv
          · rw [hv] at hp; cases hp
          · exact Or.inl ⟨rfl, hv⟩
          · exact absurd hp hv
          · exact Or.inr hv
        · have := k3 i (by simpa [hia] using hi) hp
          rwa [hw.other hia] at this
  obtain ⟨k1, _, k3⟩ := key _ _ _ List.nodup_range h1
  refine ⟨k1, fun i hi hp => ?_⟩
  have := k3 i (List.mem_range.mpr hi) hp
  refine ⟨?_, this⟩
  rcases this with ⟨h, _⟩ | ⟨h, _⟩
  · rw [show (({ s with vm := vm } : E).vm.voices i) = s.vm.voices i from h] at hp; exact hp
  · rw [show (({ s with vm := vm } : E).vm.voices i) = _ from h] at hp
    simp only [renderRec, aged] at hp
    split at hp
    · exact offRec_playing hp
    · exact hp

/-- A property of records that every event keeps (blocks aside). -/
structure Kept (c : Cfg) (Q : Nat → Voice → Prop) : Prop where
  off : OffClosed Q
  start : ∀ i m l d t v, Q i (startRec c.toEnv m l d t (cleared v))
  noteOff : ∀ d n, Closed Q (noteOffRec c.toEnv d n)
  cc : ∀ d k x, Closed Q (ccRec c.toEnv d k x)

/-- The ways through `performHdcc`. -/
theorem performHdcc_cases {s s' : E} {d : Int} {k : Nat} {x : ℚ} {b : Bool} {arg : Int}
    (ho : performHdcc c s d k x b arg = some s') :
    (b = true ∧ k = 121 ∧ s'.vm = (eachVoice (resetVoiceCCs c d) s).vm) ∨
    (b = true ∧ (k = 123 ∨ k = 120) ∧ ∃ s1, eachVoiceM (reset c.toEnv) s = some s1 ∧ s'.vm = s1.vm) ∨
    (¬ (b = true ∧ (k = 121 ∨ k = 123 ∨ k = 120)) ∧
      ∃ s1, ccDispatch c (eachVoice (fun vm i => voiceCC c.toEnv vm i d k x) s) d k x arg = some s1 ∧ s'.vm = s1.vm) := by
  unfold Engine.performHdcc at ho
  split at ho
  · rename_i hk
    simp only [Option.some.injEq] at ho
    refine Or.inl ⟨hk.1, hk.2, ?_⟩
    rw [← ho]
    simp only [resetAllControllers, eachLayer_vm, eachVoice]
  split at ho
  · rename_i hk
    rw [Option.bind_eq_bind, Option.bind_eq_some_iff] at ho
    obtain ⟨s1, h1, h2⟩ := ho
    simp only [Option.pure_def, Option.some.injEq] at h2
    exact Or.inr (Or.inl ⟨hk.1, hk.2, s1, h1, by rw [← h2]⟩)
  · rename_i hk hk'
    rw [Option.bind_eq_bind, Option.bind_eq_some_iff] at ho
    obtain ⟨s1, h1, h2⟩ := ho
    simp only [Option.pure_def, Option.some.injEq] at h2
    refine Or.inr (Or.inr ⟨?_, s1, h1, by rw [← h2]⟩)
    rintro ⟨hb, hc | hc | hc⟩
    · exact hk ⟨hb, hc⟩
    · exact hk' ⟨hb, Or.inl hc⟩
    · exact hk' ⟨hb, Or.inr hc⟩

theorem performHdcc_hold {Q : Nat → Voice → Prop} (hoff : OffClosed Q)
    (hst : ∀ i m l d t v, Q i (startRec c.toEnv m l d t (cleared v))) (hcc : ∀ d k x, Closed Q (ccRec c.toEnv d k x)) {s s' : E} {d : Int} {k : Nat} {x : ℚ} {b : Bool} {arg : Int}
    (h : Hold Q s.vm) (ho : performHdcc c s d k x b arg = some s') : Hold Q s'.vm := by
  rcases performHdcc_cases ho with ⟨_, _, h1⟩ | ⟨_, _, s1, h1, h2⟩ | ⟨_, s1, h1, h2⟩
  · rw [h1]
    refine Hold.eachVoice (resetVoiceCCs_own c d) ?_ h
    unfold resetRec
    generalize List.range Layer.numCCs = L
    exact Closed.foldl (g := fun cc v => ccRec c.toEnv d cc (c.defaultCC cc) v) (fun cc => hcc d cc _) L
  · rw [h2]; exact Hold.resetAll h1
  · rw [h2]
    exact Hold.ccDispatch (s' := s1) hoff (fun i l d t v _ => hst _ _ _ _ _ _)
      (Hold.eachVoice (voiceCC_own c.toEnv d k x) (hcc d k x) h) h1

/-- A property of records kept by one call. -/
structure KeptBy (c : Cfg) (op : Op) (Q : Nat → Voice → Prop) : Prop where
  off : OffClosed Q
  start : ∀ i m l d t v, Q i (startRec c.toEnv m l d t (cleared v))
  noteOff : ∀ d n v, op = .noteOff d n v → Closed Q (noteOffRec c.toEnv d n)
  cc : ∀ d k x, Closed Q (ccRec c.toEnv d k x)
  render : ∀ f snd sd, op = .render f snd → Closed Q (renderRec c f sd)

theorem KeptBy.step {Q : Nat → Voice → Prop} {op : Op} (hQ : KeptBy c op Q) {s s' : E} (h : Hold Q s.vm)
    (ho : step c s op = some s') : Hold Q s'.vm := by
  cases op with
  | noteOn d n v =>
    unfold Engine.step hdNoteOn at ho
    refine Hold.noteOnDispatch hQ.off (fun i l d t v _ => hQ.start _ _ _ _ _ _) (fun i l d w => hQ.start _ _ _ _ _ _) ?_ ho
    split <;> exact h
  | noteOff d n v =>
    unfold Engine.step hdNoteOff at ho
    refine Hold.offs hQ.off (noteOffDispatch_atoms _ _ _ _ _ _ ho) (fun i l d t v _ => hQ.start _ _ _ _ _ _) ?_
    refine Hold.eachVoice (voiceNoteOff_own c.toEnv d n) (hQ.noteOff d n v rfl) ?_
    split <;> exact h
  | cc d k v => have ho' : Engine.performHdcc c s d k v true (-1) = some s' := ho
                exact performHdcc_hold hQ.off hQ.start hQ.cc h ho'
  | automate d k v => have ho' : Engine.performHdcc c s d k v false (-1) = some s' := ho
                      exact performHdcc_hold hQ.off hQ.start hQ.cc h ho'
  | pitchWheel d v =>
    have ho' : hdPitchWheel c s d v = some s' := ho
    unfold hdPitchWheel at ho'
    refine performHdcc_hold hQ.off hQ.start hQ.cc ?_ ho'
    rw [eachLayer_vm]; exact h
  | program p => cases ho; exact h
  | channelAftertouch d v =>
    have ho' : hdChannelAftertouch c s d v = some s' := ho
    unfold hdChannelAftertouch at ho'
    refine performHdcc_hold hQ.off hQ.start hQ.cc ?_ ho'
    rw [eachLayer_vm]; exact h
  | polyAftertouch d n v =>
    have ho' : hdPolyAftertouch c s d n v = some s' := ho
    unfold hdPolyAftertouch at ho'
    exact performHdcc_hold hQ.off hQ.start hQ.cc (by exact h) ho'
  | render f snd =>
    by_cases hf : 1 ≤ f
    · obtain ⟨k1, k2⟩ := render_voices hf ho
      intro i hi hp
      rw [k1] at hi
      obtain ⟨hp', ⟨he, _⟩ | ⟨he, _⟩⟩ := k2 i hi hp
      · rw [he]; exact h i hi hp'
      · rw [he] at hp ⊢
        exact hQ.render f snd _ rfl i _ (h i hi) hp
    · have ho : Engine.render c s f snd = some s' := ho
      unfold Engine.render at ho
      rw [if_pos (by omega)] at ho
      cases ho; exact h
  | allSoundOff => exact Hold.resetAll ho
  | setNumVoices n =>
    cases ho
    unfold Engine.setNumVoices
    split
    · exact h
    · intro i _ hp
      simp [initVM] at hp

theorem Kept.step {Q : Nat → Voice → Prop} (hQ : Kept c Q) {s s' : E} {op : Op}
    (hr : ∀ f snd sd, op = .render f snd → Closed Q (renderRec c f sd)) (h : Hold Q s.vm)
    (ho : step c s op = some s') : Hold Q s'.vm :=
  KeptBy.step ⟨hQ.off, hQ.start, fun d n _ _ => hQ.noteOff d n, hQ.cc, hr⟩ h ho

theorem Hold.load {Q : Nat → Voice → Prop} (m : Midi.State) (sw : Option Int) (n : Nat) (gl sl : Nat → Nat) :
    Hold Q (load c m sw n gl sl).vm := by
  intro i _ hp
  simp [Engine.load, initVM] at hp

theorem Kept.run {Q : Nat → Voice → Prop} (hQ : Kept c Q) (hr : ∀ f sd, Closed Q (renderRec c f sd)) : ∀ (ops : List Op) {s s' : E}, Hold Q s.vm → run c s ops = some s' →
    Hold Q s'.vm := by
  intro ops
  induction ops with
  | nil => intro s s' h h'; cases h'; exact h
  | cons op tl ih =>
    intro s s' h h'
    unfold Engine.run at h'
    rw [List.foldlM_cons, Option.bind_eq_bind, Option.bind_eq_some_iff] at h'
    obtain ⟨s1, h1, h2⟩ := h'
    exact ih (hQ.step (fun f _ sd _ => hr f sd) h h1) h2

end Verif.Engine
