import Verif.Engine.Reach

/-! Every call of the API is defined, keeps the invariant of the voice manager and respects the polyphony limits. -/
namespace Verif.Engine

open Verif.Layer (Region)

variable {e : Env} {c : Cfg}

/-- Changes of the voice manager made by calls of the API. -/
inductive VTop (e : Env) : VM → VM → Prop
  | soft {s s' : VM} : SoftVM s s' → VTop e s s'
  | reach {s s' : VM} : VReach e (fun _ => True) s s' → VTop e s s'
  | reset {s s' : VM} {i : Nat} : reset e s i = some s' → VTop e s s'
  | init {s : VM} (n : Nat) : (e.stealer = .envelopeAndAge → 1 ≤ n) →
      VTop e s (initVM n (fun g => (s.groups g).limit) s.setLimits)
  | trans {a b c : VM} : VTop e a b → VTop e b c → VTop e a c

theorem VTop.refl (s : VM) : VTop e s s := .soft (SoftVM.refl s)

theorem VTop.inv {s s' : VM} (hr : VTop e s s') : VInv e s → VInv e s' := by
  induction hr with
  | soft h => exact fun hi => hi.soft h
  | reach h => exact h.inv
  | @reset s s' i h =>
    intro hi
    obtain ⟨s2, h1, h2, _⟩ := reset_ok e hi i
    rw [h] at h1; cases h1; exact h2
  | init n hn => exact fun _ => initVM_inv e _ _ _
  | trans _ _ i1 i2 => exact fun hi => i2 (i1 hi)

theorem VTop.limits {s s' : VM} (hr : VTop e s s') : VInv e s → LimitsOk e s → LimitsOk e s' := by
  induction hr with
  | soft h => exact fun _ hi => hi.soft h
  | reach h => exact fun _ => h.limits
  | @reset s s' i h =>
    intro hi hl hst
    obtain ⟨s2, h1, _, _, _, h4, h5, h6, _⟩ := reset_ok e hi i
    rw [h] at h1; cases h1
    have := hl hst
    exact ⟨by rw [h4]; exact this.1, fun g => by rw [h6]; exact this.2.1 g, fun k => by rw [h5]; exact this.2.2.1 k,
      this.2.2.2⟩
  | init n hn =>
    intro _ hl hst
    have := hl hst
    exact ⟨hn hst, this.2.1, this.2.2.1, this.2.2.2⟩
  | trans h1 _ i1 i2 => exact fun hi hl => i2 (h1.inv hi) (i1 hi hl)

/-! ### Every call is defined -/

/-- Calls for which the engine is defined: with the envelope stealer, at least one voice. -/
def OpOk (e : Env) : Op → Prop
  | .setNumVoices n => e.stealer = .envelopeAndAge → 1 ≤ n
  | _ => True

theorem reset_top {s : VM} (h : VInv e s) (i : Nat) : ∃ s', reset e s i = some s' ∧ VTop e s s' := by
  obtain ⟨s', h1, _⟩ := reset_ok e h i
  exact ⟨s', h1, .reset h1⟩

theorem switchState_clean (s : VM) (i : Nat) (h : (s.voices i).state ≠ .idle) :
    ∃ s', switchState e s i .cleanMeUp = some s' ∧ SoftVM s s' := by
  unfold switchState
  split
  · exact ⟨s, rfl, SoftVM.refl s⟩
  · refine ⟨_, rfl, softVM_setVoice s i _ ⟨rfl, ?_, fun _ => rfl, fun _ => rfl, id⟩⟩
    simp [h]

theorem voiceRender_top {s : VM} (h : VInv c.toEnv s) (frames : Nat) (snd : Nat → Sound) (i : Nat) :
    ∃ s', voiceRender c frames snd s i = some s' ∧ SoftVM s s' := by
  unfold voiceRender
  cases hl : (s.voices i).layer with
  | none => exact ⟨s, rfl, SoftVM.refl s⟩
  | some l =>
    simp only
    split
    · exact ⟨s, rfl, SoftVM.refl s⟩
    · have h1 : ∃ s1, sampleStop (snd i) s i = some s1 ∧ SoftVM s s1 := by
        unfold sampleStop
        cases (snd i).sampleEnded with
        | none => exact ⟨s, rfl, SoftVM.refl s⟩
        | some d =>
          have := off_some s i d (by rw [hl]; simp)
          exact ⟨_, this, off_soft this⟩
      obtain ⟨s1, k1, k2⟩ := h1
      have h2 : ∃ s2, envelopeStop c (snd i) s1 i = some s2 ∧ SoftVM s1 s2 := by
        unfold envelopeStop
        split
        · refine switchState_clean s1 i ?_
          rw [ne_eq, (k2.voices i).idle, h.idle i, hl]; simp
        · exact ⟨s1, rfl, SoftVM.refl s1⟩
      obtain ⟨s2, k3, k4⟩ := h2
      refine ⟨setVoice s2 i (aged frames (snd i) (s2.voices i)), by simp [k1, k3], k2.trans (k4.trans ?_)⟩
      exact softVM_setVoice s2 i _ ⟨rfl, Iff.rfl, id, fun _ => rfl, id⟩

theorem renderVoice_top {s : VM} (h : VInv c.toEnv s) (frames : Nat) (snd : Nat → Sound) (i : Nat) :
    ∃ s', renderVoice c frames snd s i = some s' ∧ VTop c.toEnv s s' := by
  unfold renderVoice
  split
  · exact ⟨s, rfl, .refl s⟩
  · obtain ⟨s1, h1, h2⟩ := voiceRender_top h frames snd i
    rw [h1]
    simp only [Option.bind_eq_bind, Option.bind_some]
    split
    · obtain ⟨s2, h3, h4⟩ := reset_top (h.soft h2) i
      exact ⟨s2, h3, .trans (.soft h2) h4⟩
    · exact ⟨s1, rfl, .soft h2⟩

theorem eachVoiceM_top (f : VM → Nat → Option VM)
    (hf : ∀ s i, VInv c.toEnv s → ∃ s', f s i = some s' ∧ VTop c.toEnv s s') (s : E) (h : VInv c.toEnv s.vm) :
    ∃ s', eachVoiceM f s = some s' ∧ VTop c.toEnv s.vm s'.vm := by
  obtain ⟨vm, h1, _, h3⟩ := foldlM_ok f (VInv c.toEnv) (VTop c.toEnv) VTop.refl (fun _ _ _ => .trans)
    (fun s i hi => by
      obtain ⟨s', k1, k2⟩ := hf s i hi
      exact ⟨s', k1, k2.inv hi, k2⟩) (List.range s.vm.size) s.vm h
  exact ⟨{ s with vm := vm }, by simp [eachVoiceM, h1], h3⟩

theorem eachVoice_soft (f : VM → Nat → VM) (hf : ∀ s i, SoftVM s (f s i)) (s : E) : SoftVM s.vm (eachVoice f s).vm :=
  foldl_soft f hf _ _

@[simp] theorem eachLayer_vm (f : Nat → Layer.State → Layer.State) (s : E) : (eachLayer c f s).vm = s.vm := rfl

theorem resetVoiceCCs_soft (d : Int) (s : VM) (i : Nat) : SoftVM s (resetVoiceCCs c d s i) :=
  foldl_soft _ (fun s cc => voiceCC_soft s i d cc _) _ _

theorem performHdcc_top (s : E) (d : Int) (cc : Nat) (v : ℚ) (b : Bool) (arg : Int) (hi : VInv c.toEnv s.vm)
    (hl : LimitsOk c.toEnv s.vm) :
    ∃ s', performHdcc c s d cc v b arg = some s' ∧ VTop c.toEnv s.vm s'.vm := by
  unfold performHdcc
  split
  · refine ⟨_, rfl, .soft ?_⟩
    have hvm : (resetAllControllers c s d).vm = (List.range s.vm.size).foldl (resetVoiceCCs c d) s.vm := by
      simp only [resetAllControllers, eachLayer_vm, eachVoice]
    rw [hvm]
    exact foldl_soft _ (fun s i => resetVoiceCCs_soft d s i) _ _
  · split
    · obtain ⟨s1, h1, h2⟩ := eachVoiceM_top (c := c) (reset c.toEnv) (fun s i h => reset_top h i) s hi
      rw [h1]
      exact ⟨_, rfl, h2⟩
    · have h1 : SoftVM s.vm (eachVoice (fun vm i => voiceCC c.toEnv vm i d cc v) s).vm :=
        eachVoice_soft _ (fun s i => voiceCC_soft s i d cc v) s
      obtain ⟨s2, h2, h3⟩ := ccDispatch_ok (eachVoice (fun vm i => voiceCC c.toEnv vm i d cc v) s) d cc v arg
        (hi.soft h1) (hl.soft h1)
      simp only [h2, Option.bind_eq_bind, Option.bind_some]
      exact ⟨_, rfl, .trans (.soft h1) (.reach h3)⟩

theorem hdNoteOn_top (s : E) (d k : Int) (v : ℚ) (hi : VInv c.toEnv s.vm) (hl : LimitsOk c.toEnv s.vm) :
    ∃ s', hdNoteOn c s d k v = some s' ∧ VTop c.toEnv s.vm s'.vm := by
  unfold hdNoteOn
  simp only
  generalize hs1 : (if (lastLayers c k).isEmpty = true then _ else s : E) = s1
  have hvm : s1.vm = s.vm := by rw [← hs1]; split <;> rfl
  obtain ⟨s2, h1, h2⟩ := noteOnDispatch_ok s1 d k v (by rw [hvm]; exact hi) (by rw [hvm]; exact hl)
  rw [hvm] at h2
  exact ⟨s2, h1, .reach h2⟩

theorem hdNoteOff_top (s : E) (d k : Int) (v : ℚ) (hi : VInv c.toEnv s.vm) (hl : LimitsOk c.toEnv s.vm) :
    ∃ s', hdNoteOff c s d k v = some s' ∧ VTop c.toEnv s.vm s'.vm := by
  unfold hdNoteOff
  simp only
  generalize hs1 : (if (lastLayers c k).isEmpty = true then _ else s : E) = s1
  have hvm : s1.vm = s.vm := by rw [← hs1]; split <;> rfl
  have h1 : SoftVM s1.vm (eachVoice (fun vm i => voiceNoteOff c.toEnv vm i d k) s1).vm :=
    eachVoice_soft _ (fun s i => voiceNoteOff_soft s i d k) s1
  rw [hvm] at h1
  obtain ⟨s2, h2, h3⟩ := noteOff_fuel_ok (eachVoice (fun vm i => voiceNoteOff c.toEnv vm i d k) s1)
    (eachVoice (fun vm i => voiceNoteOff c.toEnv vm i d k) s1) d k (Layer.noteVelocity s1.midi k)
    (hi.soft h1) (hl.soft h1) rfl
  exact ⟨s2, h2, .trans (.soft h1) (.reach (anyT h3))⟩

/-- Every call of the API is defined. -/
theorem step_top (s : E) (op : Op) (ho : OpOk c.toEnv op) (hi : VInv c.toEnv s.vm) (hl : LimitsOk c.toEnv s.vm) :
    ∃ s', step c s op = some s' ∧ VTop c.toEnv s.vm s'.vm := by
  cases op with
  | noteOn d k v => exact hdNoteOn_top s d k v hi hl
  | noteOff d k v => exact hdNoteOff_top s d k v hi hl
  | cc d k v => exact performHdcc_top s d k v true (-1) hi hl
  | automate d k v => exact performHdcc_top s d k v false (-1) hi hl
  | pitchWheel d v => exact performHdcc_top _ d 128 v false (-1) hi hl
  | program p => exact ⟨_, rfl, .refl _⟩
  | channelAftertouch d v => exact performHdcc_top _ d 129 v false (-1) hi hl
  | polyAftertouch d k v => exact performHdcc_top _ d 130 v false k hi hl
  | render f snd =>
    simp only [step, render]
    split
    · exact ⟨s, rfl, .refl _⟩
    · obtain ⟨s1, h1, h2⟩ := eachVoiceM_top (c := c) (renderVoice c f snd) (fun s i h => renderVoice_top h f snd i) s hi
      rw [h1]
      exact ⟨_, rfl, h2⟩
  | allSoundOff => exact eachVoiceM_top (c := c) (reset c.toEnv) (fun s i h => reset_top h i) s hi
  | setNumVoices n =>
    refine ⟨_, rfl, ?_⟩
    unfold setNumVoices
    split
    · exact .refl _
    · exact .init n ho

/-- Histories of calls are defined. -/
theorem run_top (s : E) (ops : List Op) (ho : ∀ op ∈ ops, OpOk c.toEnv op) (hi : VInv c.toEnv s.vm)
    (hl : LimitsOk c.toEnv s.vm) : ∃ s', run c s ops = some s' ∧ VTop c.toEnv s.vm s'.vm := by
  induction ops generalizing s with
  | nil => exact ⟨s, rfl, .refl _⟩
  | cons op tl ih =>
    obtain ⟨s1, h1, h2⟩ := step_top s op (ho op (by simp)) hi hl
    obtain ⟨s2, h3, h4⟩ := ih s1 (fun o h => ho o (by simp [h])) (h2.inv hi) (h2.limits hi hl)
    exact ⟨s2, by simp only [run, List.foldlM_cons, h1]; exact h3, .trans h2 h4⟩

/-! ### Polyphony -/

/-- The voices that play, are not choked, and whose region satisfies `P`. -/
def voicesOf (s : VM) (P : Nat → Bool) : Finset Nat :=
  (Finset.range s.size).filter (fun i =>
    (s.voices i).state = .playing ∧ (s.voices i).offed = false ∧ (s.voices i).layer.any P = true)

theorem mem_voicesOf {s : VM} (h : VInv e s) (P : Nat → Bool) (i : Nat) :
    i ∈ voicesOf s P ↔ Sounds s i ∧ ∃ l, Listed e s i l ∧ P l = true := by
  simp only [voicesOf, Finset.mem_filter, Finset.mem_range, sounds_iff]
  constructor
  · rintro ⟨_, h1, h2, h3⟩
    refine ⟨⟨h1, h2⟩, ?_⟩
    obtain ⟨l, hl⟩ := h.sounds_layer ((sounds_iff s i).mpr ⟨h1, h2⟩)
    refine ⟨l, hl, ?_⟩
    rw [hl.1] at h3; exact h3
  · rintro ⟨⟨h1, h2⟩, l, hl, hp⟩
    refine ⟨h.lt_size e (by rw [hl.1]; simp), h1, h2, ?_⟩
    rw [hl.1]; exact hp

/-- The count made by the polyphony checks is the number of such voices. -/
theorem cnt_eq {s : VM} (h : VInv e s) (P : Nat → Bool) (l : List Nat) (hn : l.Nodup)
    (hm : ∀ i, i ∈ l ↔ ∃ k, Listed e s i k ∧ P k = true) : cnt s l = (voicesOf s P).card := by
  unfold cnt
  rw [← List.toFinset_card_of_nodup (hn.filter _)]
  congr 1
  ext i
  rw [mem_voicesOf h, List.mem_toFinset, mem_sounding, hm]
  tauto

theorem voicesOf_mono {s s' : VM} (hz : s'.size = s.size) (h : ∀ i, Sounds s' i → Sounds s i)
    (hl : ∀ i, Sounds s' i → (s'.voices i).layer = (s.voices i).layer) (P : Nat → Bool) :
    voicesOf s' P ⊆ voicesOf s P := by
  intro i hi
  simp only [voicesOf, Finset.mem_filter, Finset.mem_range] at hi ⊢
  have hs : Sounds s' i := (sounds_iff s' i).mpr ⟨hi.2.1, hi.2.2.1⟩
  have h1 := (sounds_iff s i).mp (h i hs)
  refine ⟨by rw [← hz]; exact hi.1, h1.1, h1.2, ?_⟩
  rw [← hl i hs]; exact hi.2.2.2

theorem SoftVM.sounds {s s' : VM} (h : SoftVM s s') {i : Nat} (hs : Sounds s' i) : Sounds s i := by
  rw [sounds_iff] at hs ⊢
  have hv := h.voices i
  constructor
  · cases hst : (s.voices i).state with
    | idle => rw [hv.idle.mpr hst] at hs; exact absurd hs.1 (by decide)
    | playing => rfl
    | cleanMeUp => rw [hv.clean hst] at hs; exact absurd hs.1 (by decide)
  · by_contra hc
    rw [hv.mono (by simpa using hc)] at hs
    exact absurd hs.2 (by decide)

theorem SoftVM.voicesOf {s s' : VM} (h : SoftVM s s') (P : Nat → Bool) : voicesOf s' P ⊆ voicesOf s P :=
  voicesOf_mono h.links.size (fun _ => h.sounds) (fun i _ => (h.voices i).layer) P

/-- The limits: for the engine, each polyphony group, each region set, and each region. A limit of zero acts as one. -/
structure PolyOk (e : Env) (s : VM) : Prop where
  engine : (voicesOf s (fun _ => true)).card ≤ max 1 s.required
  group : ∀ g, (voicesOf s (fun l => decide ((e.regions l).group = g))).card ≤ max 1 (s.groups g).limit
  set : ∀ k, (voicesOf s (fun l => decide (k ∈ (e.regions l).ancestors))).card ≤ max 1 (s.setLimits k)
  region : ∀ l, (voicesOf s (fun l' => decide (l' = l))).card ≤ max 1 (e.regions l).polyphony

theorem PolyOk.mono {s s' : VM} (h : PolyOk e s) (hm : ∀ P, voicesOf s' P ⊆ voicesOf s P)
    (h1 : s'.required = s.required) (h2 : ∀ g, (s'.groups g).limit = (s.groups g).limit)
    (h3 : s'.setLimits = s.setLimits) : PolyOk e s' := by
  constructor
  · rw [h1]; exact (Finset.card_le_card (hm _)).trans h.engine
  · intro g; rw [h2]; exact (Finset.card_le_card (hm _)).trans (h.group g)
  · intro k; rw [h3]; exact (Finset.card_le_card (hm _)).trans (h.set k)
  · intro l; exact (Finset.card_le_card (hm _)).trans (h.region l)

/-- After the checks, there is room for one voice under every limit that concerns the layer. -/
theorem Room.room {s s1 : VM} {l : Nat} (hr : Room s s1 e l) (h : VInv e s) (ho : OffVM s s1) (hp : PolyOk e s) :
    (voicesOf s1 (fun _ => true)).card + 1 ≤ max 1 s.required ∧
    (voicesOf s1 (fun l' => decide ((e.regions l').group = (e.regions l).group))).card + 1 ≤
      max 1 (s.groups (e.regions l).group).limit ∧
    (∀ k ∈ (e.regions l).ancestors,
      (voicesOf s1 (fun l' => decide (k ∈ (e.regions l').ancestors))).card + 1 ≤ max 1 (s.setLimits k)) ∧
    (voicesOf s1 (fun l' => decide (l' = l))).card + 1 ≤ max 1 (e.regions l).polyphony := by
  have h1 := h.soft ho.soft
  have hL : ∀ i l', Listed e s1 i l' ↔ Listed e s i l' := by
    intro i l'; unfold Listed; rw [(ho.soft.voices i).layer]
  have key : ∀ (P : Nat → Bool) (L : List Nat) (n : Nat), L.Nodup → (∀ i, i ∈ L ↔ ∃ k, Listed e s i k ∧ P k = true) →
      (cnt s L ≤ n → cnt s1 L + 1 ≤ n) → (voicesOf s P).card ≤ n → (voicesOf s1 P).card + 1 ≤ n := by
    intro P L n hn hm hc hle
    rw [← cnt_eq h1 P L hn (fun i => by simp only [hL]; exact hm i)]
    exact hc (by rw [cnt_eq h P L hn hm]; exact hle)
  refine ⟨?_, ?_, ?_, ?_⟩
  · exact key _ s.active _ h.actN (fun i => by simpa using h.act i) hr.engine hp.engine
  · exact key _ _ _ (h.grpN _) (fun i => by simpa using h.grp _ i) hr.group (hp.group _)
  · intro k hk
    exact key _ _ _ (h.setN k) (fun i => by simpa using h.set k i) (hr.sets k hk) (hp.set k)
  · refine key _ _ _ (h.actN.filter _) (fun i => ?_) hr.region (hp.region l)
    simp only [List.mem_filter, h.act, decide_eq_true_eq]
    constructor
    · rintro ⟨⟨l', hl'⟩, h2⟩
      refine ⟨l', hl', ?_⟩
      have := hl'.1
      rw [h2] at this; injection this with this; exact this.symm
    · rintro ⟨l', hl', rfl⟩; exact ⟨⟨l', hl'⟩, hl'.1⟩

theorem StartOk.poly {s s' : VM} {l : Nat} {t : EvType} (hs : StartOk e s s' l t) (h : VInv e s) (hp : PolyOk e s) :
    PolyOk e s' := by
  obtain ⟨s1, ho, hr, hw⟩ := hs.how
  have hp1 : PolyOk e s1 := hp.mono (fun P => ho.soft.voicesOf P) ho.soft.links.required
    (fun g => by rw [ho.soft.links.groups]) ho.soft.links.setLimits
  rcases hw with rfl | ⟨i, hi, hns, hlay, _, _, hoth⟩
  · exact hp1
  · have hsz1 : s1.size = s.size := ho.soft.links.size
    have sub : ∀ P, voicesOf s' P ⊆ insert i (voicesOf s1 P) := by
      intro P j hj
      by_cases hji : j = i
      · simp [hji]
      · refine Finset.mem_insert_of_mem ?_
        simp only [voicesOf, Finset.mem_filter, Finset.mem_range] at hj ⊢
        rw [hoth j hji] at hj
        rw [hsz1, ← hs.size]; exact hj
    have card1 : ∀ P, (voicesOf s' P).card ≤ (voicesOf s1 P).card + 1 := fun P =>
      (Finset.card_le_card (sub P)).trans (Finset.card_insert_le _ _)
    have card0 : ∀ P : Nat → Bool, P l = false → (voicesOf s' P).card ≤ (voicesOf s1 P).card := by
      intro P hP
      refine Finset.card_le_card ?_
      intro j hj
      rcases Finset.mem_insert.mp (sub P hj) with rfl | h2
      · simp only [voicesOf, Finset.mem_filter, Finset.mem_range, hlay, Option.any_some, hP] at hj
        exact absurd hj.2.2.2 (by decide)
      · exact h2
    obtain ⟨r1, r2, r3, r4⟩ := hr.room h ho hp
    constructor
    · rw [hs.required]; exact (card1 _).trans r1
    · intro g
      rw [hs.limits]
      by_cases hg : (e.regions l).group = g
      · subst hg; exact (card1 _).trans r2
      · have := hp1.group g
        rw [ho.soft.links.groups] at this
        exact (card0 _ (by simp [hg])).trans this
    · intro k
      rw [hs.setLimits]
      by_cases hk : k ∈ (e.regions l).ancestors
      · exact (card1 _).trans (r3 k hk)
      · have := hp1.set k
        rw [ho.soft.links.setLimits] at this
        exact (card0 _ (by simp [hk])).trans this
    · intro l'
      by_cases hl : l = l'
      · subst hl; exact (card1 _).trans r4
      · exact (card0 _ (by simp [hl])).trans (hp1.region l')

theorem VReach.poly {T : EvType → Prop} {s s' : VM} (hr : VReach e T s s') : VInv e s → PolyOk e s → PolyOk e s' := by
  induction hr with
  | off h =>
    exact fun _ hp => hp.mono (fun P => h.soft.voicesOf P) h.soft.links.required
      (fun g => by rw [h.soft.links.groups]) h.soft.links.setLimits
  | start _ hs => exact fun hi hp => hs.poly hi hp
  | trans h1 _ i1 i2 => exact fun hi hp => i2 (h1.inv hi) (i1 hi hp)

theorem initVM_poly (n : Nat) (gl sl : Nat → Nat) : PolyOk e (initVM n gl sl) := by
  have : ∀ P, voicesOf (initVM n gl sl) P = ∅ := by
    intro P
    ext i
    simp [voicesOf, initVM]
  constructor <;> simp [this]

theorem VTop.poly {s s' : VM} (hr : VTop e s s') : VInv e s → PolyOk e s → PolyOk e s' := by
  induction hr with
  | soft h =>
    exact fun _ hp => hp.mono (fun P => h.voicesOf P) h.links.required
      (fun g => by rw [h.links.groups]) h.links.setLimits
  | reach h => exact h.poly
  | @reset s s' i h =>
    intro hi hp
    obtain ⟨s2, h1, _, h3, h4, h5, h6, h7, _⟩ := reset_ok e hi i
    rw [h] at h1; cases h1
    refine hp.mono (fun P => voicesOf_mono h4 ?_ ?_ P) h5 h7 h6
    · intro j hj
      by_cases hji : j = i
      · subst hji
        rw [sounds_iff, h3, upd_same] at hj
        exact absurd hj.1 (by simp [cleared])
      · rw [sounds_iff, h3, upd_other _ hji] at hj
        exact (sounds_iff s j).mpr hj
    · intro j hj
      by_cases hji : j = i
      · subst hji
        rw [sounds_iff, h3, upd_same] at hj
        exact absurd hj.1 (by simp [cleared])
      · rw [h3, upd_other _ hji]
  | init n hn => exact fun _ _ => initVM_poly _ _ _
  | trans h1 _ i1 i2 => exact fun hi hp => i2 (h1.inv hi) (i1 hi hp)

end Verif.Engine
