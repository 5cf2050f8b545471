import Verif.Engine.Inv

/-! Polyphony checks and the start of a voice. -/
namespace Verif.Engine

open Verif.Layer (Region)

variable {e : Env}

/-- A voice that plays and was not choked. -/
def Sounds (s : VM) (i : Nat) : Prop := offedOrFree s i = false

theorem sounds_iff (s : VM) (i : Nat) :
    Sounds s i ↔ (s.voices i).state = .playing ∧ (s.voices i).offed = false := by
  simp [Sounds, offedOrFree]

theorem VInv.sounds_layer {s : VM} (h : VInv e s) {i : Nat} (hs : Sounds s i) : ∃ l, Listed e s i l := by
  rw [sounds_iff] at hs
  cases hl : (s.voices i).layer with
  | none => rw [(h.idle i).mpr hl] at hs; exact absurd hs.1 (by decide)
  | some l =>
    refine ⟨l, hl, ?_⟩
    by_contra hd
    have := h.dis i l hl (by simpa using hd)
    rw [this] at hs; exact absurd hs.1 (by decide)

/-- Changes made by choking voices. -/
structure OffVM (s s' : VM) : Prop where
  soft : SoftVM s s'
  mono : ∀ j, (s.voices j).offed = true → (s'.voices j).offed = true
  trig : ∀ j, (s'.voices j).trig = (s.voices j).trig
  same : ∀ j, (s'.voices j).offed = false → s'.voices j = s.voices j

theorem OffVM.refl (s : VM) : OffVM s s := ⟨SoftVM.refl s, fun _ => id, fun _ => rfl, fun _ _ => rfl⟩

theorem OffVM.trans {a b c : VM} (h : OffVM a b) (h' : OffVM b c) : OffVM a c := by
  refine ⟨h.soft.trans h'.soft, fun j x => h'.mono j (h.mono j x), fun j => (h'.trig j).trans (h.trig j), ?_⟩
  intro j hj
  have e1 := h'.same j hj
  rw [e1]
  exact h.same j (by rw [← e1]; exact hj)

theorem OffVM.sounds {s s' : VM} (h : OffVM s s') {i : Nat} (hs : Sounds s' i) : Sounds s i := by
  rw [sounds_iff] at hs ⊢
  rw [← h.same i hs.2]; exact hs

theorem offAllSisters_off {s : VM} (h : VInv e s) (c : Option Nat) (d : Int)
    (hc : ∀ i, c = some i → (s.voices i).layer ≠ none) :
    ∃ s', offAllSisters s c d = some s' ∧ OffVM s s' ∧ ∀ i, c = some i → ¬ Sounds s' i := by
  obtain ⟨s', h1, h2, h3, h4, h5, h6⟩ := offAllSisters_ok e h c d hc
  refine ⟨s', h1, ⟨h2, h4, h5, h6⟩, ?_⟩
  intro i hi hs
  rw [sounds_iff, h3 i hi] at hs
  exact absurd hs.2 (by decide)

/-- Limits with which the stealers are defined. -/
def LimitsOk (e : Env) (s : VM) : Prop :=
  e.stealer = .envelopeAndAge → 1 ≤ s.required ∧ (∀ g, 1 ≤ (s.groups g).limit) ∧ (∀ k, 1 ≤ s.setLimits k) ∧
    ∀ l, 1 ≤ (e.regions l).polyphony

theorem oldest_mem (s : VM) (l : List Nat) (i : Nat) (h : oldest s l = some i) : i ∈ l := by
  cases l with
  | nil => cases h
  | cons a tl =>
    have key : ∀ (tl : List Nat) (a : Nat),
        tl.foldl (fun c v => if (s.voices v).age > (s.voices c).age then v else c) a ∈ a :: tl := by
      intro tl
      induction tl with
      | nil => intro a; simp
      | cons b tl ih =>
        intro a
        rw [List.foldl_cons]
        have := ih (if (s.voices b).age > (s.voices a).age then b else a)
        rcases List.mem_cons.mp this with h | h
        · rw [h]; split <;> simp
        · exact List.mem_cons_of_mem _ (List.mem_cons_of_mem _ h)
    have h' := Option.some.inj h
    rw [← h']; exact key tl a

/-- The stealers pick one of their voices when the limit is reached. -/
theorem pick_ok (s : VM) (playing : List Nat) (limit : Nat) (hl : e.stealer = .envelopeAndAge → 1 ≤ limit) :
    ∃ c, pick e s playing limit = some c ∧ (∀ i, c = some i → i ∈ playing) ∧
      (limit ≤ playing.length → playing ≠ [] → ∃ i, c = some i) := by
  unfold pick
  by_cases hc : playing.length ≥ limit
  · rw [if_pos hc]
    cases hst : e.stealer with
    | first =>
      refine ⟨_, rfl, fun i hi => List.mem_of_mem_head? (by rw [hi]; rfl), fun _ hne => ?_⟩
      cases playing with
      | nil => exact absurd rfl hne
      | cons a tl => exact ⟨a, rfl⟩
    | oldest =>
      refine ⟨_, rfl, oldest_mem s playing, fun _ hne => ?_⟩
      cases playing with
      | nil => exact absurd rfl hne
      | cons a tl => exact ⟨_, rfl⟩
    | envelopeAndAge =>
      have h1 := hl hst
      have hne : playing ≠ [] := by rintro rfl; simp at hc; omega
      simp only [hne, if_false]
      refine ⟨_, rfl, fun i hi => List.mem_of_getElem? hi, fun _ _ => ?_⟩
      have : e.envelopePick s playing % playing.length < playing.length :=
        Nat.mod_lt _ (List.length_pos_iff.mpr hne)
      exact ⟨_, List.getElem?_eq_getElem this⟩
  · rw [if_neg hc]
    exact ⟨none, rfl, by simp, fun h => absurd h hc⟩

/-- Voices of the list that sound. -/
def cnt (s : VM) (l : List Nat) : Nat := (l.filter (fun i => !offedOrFree s i)).length

theorem mem_sounding (s : VM) (l : List Nat) (i : Nat) :
    i ∈ l.filter (fun i => !offedOrFree s i) ↔ i ∈ l ∧ Sounds s i := by
  simp [Sounds]

theorem OffVM.cnt_le {s s' : VM} (h : OffVM s s') (l : List Nat) : cnt s' l ≤ cnt s l := by
  unfold cnt
  rw [← List.countP_eq_length_filter, ← List.countP_eq_length_filter]
  refine List.countP_mono_left ?_
  intro i _ hi
  have : Sounds s i := h.sounds (by simpa [Sounds] using hi)
  simpa [Sounds] using this

/-- A polyphony check leaves room for one more voice. -/
theorem limitVoices_ok {s : VM} (h : VInv e s) (l : List Nat) (limit : Nat) (d : Int)
    (hl : e.stealer = .envelopeAndAge → 1 ≤ limit) (hmem : ∀ i ∈ l, (s.voices i).layer ≠ none) :
    ∃ s', limitVoices e s l limit d = some s' ∧ OffVM s s' ∧ (cnt s l ≤ max 1 limit → cnt s' l + 1 ≤ max 1 limit) := by
  obtain ⟨c, h1, h2, h3⟩ := pick_ok s (l.filter (fun i => !offedOrFree s i)) limit hl
  have hc : ∀ i, c = some i → (s.voices i).layer ≠ none := fun i hi =>
    hmem i ((mem_sounding s l i).mp (h2 i hi)).1
  obtain ⟨s', h4, h5, h6⟩ := offAllSisters_off h c d hc
  refine ⟨s', by simp [limitVoices, h1, h4], h5, ?_⟩
  intro hle
  by_cases hsmall : cnt s l + 1 ≤ max 1 limit
  · exact le_trans (Nat.add_le_add_right (h5.cnt_le l) 1) hsmall
  · have hge : limit ≤ cnt s l := by omega
    have hpos : 1 ≤ cnt s l := by omega
    obtain ⟨i, hi⟩ := h3 hge (List.length_pos_iff.mp hpos)
    have him := (mem_sounding s l i).mp (h2 i hi)
    have hlt : cnt s' l < cnt s l := by
      unfold cnt
      have hsub : (l.filter (fun i => !offedOrFree s' i)).length =
          ((l.filter (fun i => !offedOrFree s i)).filter (fun i => !offedOrFree s' i)).length := by
        rw [List.filter_filter]
        congr 1
        refine List.filter_congr ?_
        intro j _
        by_cases hj : Sounds s' j
        · have := h5.sounds hj
          simp only [Sounds] at this hj
          simp [this, hj]
        · simp only [Sounds, Bool.not_eq_false] at hj
          simp [hj]
      rw [hsub]
      refine List.length_filter_lt_length_iff_exists.mpr ⟨i, h2 i hi, ?_⟩
      have := h6 i hi
      simpa [Sounds] using this
    omega

/-! ### The checks before a start -/

theorem LimitsOk.soft {s s' : VM} (h : LimitsOk e s) (hs : SoftVM s s') : LimitsOk e s' := by
  intro hst
  have := h hst
  rw [hs.links.required, hs.links.groups, hs.links.setLimits]
  exact this

theorem noteLoop_ok (d : Int) (target : Nat) : ∀ (l : List Nat) (s : VM) (counter : Nat), VInv e s →
    (∀ i ∈ l, (s.voices i).layer ≠ none) → ∃ s', noteLoop s d target l counter = some s' ∧ OffVM s s' := by
  intro l
  induction l with
  | nil => intro s c _ _; exact ⟨s, rfl, OffVM.refl s⟩
  | cons i tl ih =>
    intro s c h hm
    unfold noteLoop
    split
    · by_cases ho : offedOrFree s i = true
      · obtain ⟨s', h1, h2⟩ := ih s (c - 1) h (fun j hj => hm j (by simp [hj]))
        exact ⟨s', by simp [ho, h1], h2⟩
      · obtain ⟨s1, h1, h2, _⟩ := offAllSisters_off h (some i) d (by
          intro j hj; cases hj; exact hm i (by simp))
        obtain ⟨s', h3, h4⟩ := ih s1 (c - 1) (h.soft h2.soft) (by
          intro j hj; rw [(h2.soft.voices j).layer]; exact hm j (by simp [hj]))
        exact ⟨s', by simp [ho, h1, h3], h2.trans h4⟩
    · exact ⟨s, rfl, OffVM.refl s⟩

theorem noteOrder_perm (s : VM) (m : Bool) (l : List Nat) : (noteOrder s m l).Perm l := by
  unfold noteOrder
  split <;> exact List.perm_insertionSort _ _

theorem VInv.active_layer {s : VM} (h : VInv e s) {i : Nat} (hi : i ∈ s.active) : (s.voices i).layer ≠ none := by
  obtain ⟨l, hl⟩ := (h.act i).mp hi
  rw [hl.1]; simp

theorem checkNotePolyphony_ok {s : VM} (h : VInv e s) (r : Region) (d : Int) (t : Trig) :
    ∃ s', checkNotePolyphony e s r d t = some s' ∧ OffVM s s' := by
  unfold checkNotePolyphony
  cases r.notePolyphony with
  | none => exact ⟨s, rfl, OffVM.refl s⟩
  | some np =>
    refine noteLoop_ok d _ _ s _ h ?_
    intro i hi
    have h1 := (noteOrder_perm _ _ _).mem_iff.mp hi
    have h2 := (List.mem_filter.mp h1).1
    exact h.active_layer (List.mem_filter.mp h2).1

theorem setChecks_ok (d : Int) : ∀ (ks : List Nat) (s : VM), VInv e s →
    (e.stealer = .envelopeAndAge → ∀ k, 1 ≤ s.setLimits k) →
    ∃ s', ks.foldlM (fun s k => limitVoices e s (s.setVoices k) (s.setLimits k) d) s = some s' ∧ OffVM s s' ∧
      ∀ k ∈ ks, cnt s (s.setVoices k) ≤ max 1 (s.setLimits k) → cnt s' (s.setVoices k) + 1 ≤ max 1 (s.setLimits k) := by
  intro ks
  induction ks with
  | nil => intro s _ _; exact ⟨s, rfl, OffVM.refl s, by simp⟩
  | cons k tl ih =>
    intro s h hl
    obtain ⟨s1, h1, h2, h3⟩ := limitVoices_ok h (s.setVoices k) (s.setLimits k) d (fun x => hl x k) (by
      intro i hi; obtain ⟨l, hl', _⟩ := (h.set k i).mp hi; rw [hl'.1]; simp)
    obtain ⟨s', h4, h5, h6⟩ := ih s1 (h.soft h2.soft) (by rw [h2.soft.links.setLimits]; exact hl)
    rw [h2.soft.links.setLimits, h2.soft.links.setVoices] at h6
    refine ⟨s', by rw [List.foldlM_cons, h1]; exact h4, h2.trans h5, ?_⟩
    intro k' hk' hle
    rcases List.mem_cons.mp hk' with rfl | hk'
    · exact le_trans (Nat.add_le_add_right (h5.cnt_le _) 1) (h3 hle)
    · exact h6 k' hk' (le_trans (h2.cnt_le _) hle)

/-- The counts that the limits are about. -/
structure Room (s s' : VM) (e : Env) (l : Nat) : Prop where
  region : cnt s (s.active.filter (fun i => decide ((s.voices i).layer = some l))) ≤ max 1 (e.regions l).polyphony →
    cnt s' (s.active.filter (fun i => decide ((s.voices i).layer = some l))) + 1 ≤ max 1 (e.regions l).polyphony
  group : cnt s (s.groups (e.regions l).group).voices ≤ max 1 (s.groups (e.regions l).group).limit →
    cnt s' (s.groups (e.regions l).group).voices + 1 ≤ max 1 (s.groups (e.regions l).group).limit
  sets : ∀ k ∈ (e.regions l).ancestors, cnt s (s.setVoices k) ≤ max 1 (s.setLimits k) →
    cnt s' (s.setVoices k) + 1 ≤ max 1 (s.setLimits k)
  engine : cnt s s.active ≤ max 1 s.required → cnt s' s.active + 1 ≤ max 1 s.required

/-- The checks succeed, only choke voices, and leave room for a voice of the layer. -/
theorem checkPolyphony_ok {s : VM} (h : VInv e s) (hl : LimitsOk e s) (l : Nat) (d : Int) (t : Trig) :
    ∃ s', checkPolyphony e s l d t = some s' ∧ OffVM s s' ∧ Room s s' e l := by
  obtain ⟨s1, a1, b1⟩ := checkNotePolyphony_ok h (e.regions l) d t
  have h1 := h.soft b1.soft
  have e1 : s1.active.filter (fun i => decide ((s1.voices i).layer = some l)) =
      s.active.filter (fun i => decide ((s.voices i).layer = some l)) := by
    rw [b1.soft.links.active]
    refine List.filter_congr ?_
    intro i _; rw [(b1.soft.voices i).layer]
  obtain ⟨s2, a2, b2, r2⟩ := limitVoices_ok h1
    (s1.active.filter (fun i => decide ((s1.voices i).layer = some l))) (e.regions l).polyphony d
    (fun x => (hl x).2.2.2 l) (fun i hi => h1.active_layer (List.mem_filter.mp hi).1)
  rw [e1] at r2
  have h2 := h1.soft b2.soft
  have b02 := b1.trans b2
  have eg : s2.groups = s.groups := b02.soft.links.groups
  obtain ⟨s3, a3, b3, r3⟩ := limitVoices_ok h2 (s2.groups (e.regions l).group).voices
    (s2.groups (e.regions l).group).limit d (fun x => by rw [eg]; exact (hl x).2.1 _) (by
      intro i hi; obtain ⟨l', hl', _⟩ := (h2.grp _ i).mp hi; rw [hl'.1]; simp)
  have h3 := h2.soft b3.soft
  have b03 := b02.trans b3
  obtain ⟨s4, a4, b4, r4⟩ := setChecks_ok d (e.regions l).ancestors s3 h3 (fun x => by
    rw [b03.soft.links.setLimits]; exact (hl x).2.2.1)
  have h4 := h3.soft b4.soft
  have b04 := b03.trans b4
  obtain ⟨s5, a5, b5, r5⟩ := limitVoices_ok h4 s4.active s4.required d (fun x => by
    rw [b04.soft.links.required]; exact (hl x).1) (fun i hi => h4.active_layer hi)
  have b05 := b04.trans b5
  refine ⟨s5, ?_, b05, ?_, ?_, ?_, ?_⟩
  · unfold checkPolyphony checkRegionPolyphony checkGroupPolyphony checkSetPolyphony checkEnginePolyphony
    rw [a1]; simp only [Option.bind_eq_bind, Option.bind_some]
    rw [a2]; simp only [Option.bind_some]
    rw [a3]; simp only [Option.bind_some]
    rw [a4]; simp only [Option.bind_some]
    exact a5
  · intro hle
    exact le_trans (Nat.add_le_add_right (((b3.trans b4).trans b5).cnt_le _) 1) (r2 (le_trans (b1.cnt_le _) hle))
  · intro hle
    rw [eg] at r3
    exact le_trans (Nat.add_le_add_right ((b4.trans b5).cnt_le _) 1) (r3 (le_trans (b02.cnt_le _) hle))
  · intro k hk hle
    rw [b03.soft.links.setVoices, b03.soft.links.setLimits] at r4
    exact le_trans (Nat.add_le_add_right (b5.cnt_le _) 1) (r4 k hk (le_trans (b03.cnt_le _) hle))
  · intro hle
    rw [b04.soft.links.active, b04.soft.links.required] at r5
    exact r5 (le_trans (b04.cnt_le _) hle)

/-! ### Starting a voice -/

/-- Entering a voice in the lists keeps the invariant. -/
theorem VInv.play {s s' : VM} (h : VInv e s) (i l : Nat) (v : Voice) (hi : (s.voices i).layer = none)
    (hsz : i < s.size) (hd : (e.regions l).disabled = false) (hv : v.layer = some l) (hst : v.state ≠ .idle)
    (e1 : s'.voices = Midi.upd s.voices i v) (e2 : s'.size = s.size) (e3 : s'.active = s.active ++ [i])
    (e4 : s'.setVoices = addToSets s.setVoices (e.regions l).ancestors i)
    (e5 : ∀ g, (s'.groups g).voices =
      if g = (e.regions l).group then addOnce (s.groups g).voices i else (s.groups g).voices)
    (e6 : s'.next = s.next) (e7 : s'.prev = s.prev) : VInv e s' := by
  have hL : ∀ j l', Listed e s' j l' ↔ (j = i ∧ l' = l) ∨ Listed e s j l' := by
    intro j l'
    unfold Listed
    rw [e1]
    by_cases hj : j = i
    · subst hj; rw [upd_same, hv, hi]
      constructor
      · rintro ⟨a, b⟩; injection a with a; exact Or.inl ⟨rfl, a.symm⟩
      · rintro (⟨_, rfl⟩ | ⟨a, _⟩)
        · exact ⟨rfl, hd⟩
        · cases a
    · rw [upd_other _ hj]; simp [hj]
  have hnl : ∀ l', ¬ Listed e s i l' := by intro l' hc; rw [Listed, hi] at hc; cases hc.1
  constructor
  · intro j
    rw [e1]
    by_cases hj : j = i
    · subst hj; rw [upd_same, hv]; simp [hst]
    · rw [upd_other _ hj]; exact h.idle j
  · intro j hj
    rw [e2] at hj
    rw [e1, upd_other _ (by omega)]; exact h.out j hj
  · intro j l'
    rw [e1]
    by_cases hj : j = i
    · subst hj; rw [upd_same, hv]
      intro a b; injection a with a; subst a; rw [hd] at b; cases b
    · rw [upd_other _ hj]; exact h.dis j l'
  · intro j
    rw [e1]
    by_cases hj : j = i
    · subst hj; rw [upd_same, hv]; simp
    · rw [upd_other _ hj]; exact h.idleOff j
  · rw [e3, List.nodup_append]
    refine ⟨h.actN, by simp, ?_⟩
    rintro a ha b hb rfl
    simp at hb; subst hb
    obtain ⟨l', hl'⟩ := (h.act a).mp ha
    exact hnl l' hl'
  · intro j
    rw [e3]
    simp only [hL, List.mem_append, List.mem_singleton, h.act]
    constructor
    · rintro (⟨l', a⟩ | rfl)
      · exact ⟨l', Or.inr a⟩
      · exact ⟨l, Or.inl ⟨rfl, rfl⟩⟩
    · rintro ⟨l', (⟨a, _⟩ | a)⟩
      · exact Or.inr a
      · exact Or.inl ⟨l', a⟩
  · intro g
    rw [e5]
    split
    · exact addOnce_nodup (h.grpN g) i
    · exact h.grpN g
  · intro g j
    rw [e5]
    simp only [hL]
    by_cases hg : g = (e.regions l).group
    · rw [if_pos hg, mem_addOnce, h.grp]
      constructor
      · rintro (rfl | ⟨l', a, b⟩)
        · exact ⟨l, Or.inl ⟨rfl, rfl⟩, hg.symm⟩
        · exact ⟨l', Or.inr a, b⟩
      · rintro ⟨l', (⟨a, _⟩ | a), b⟩
        · exact Or.inl a
        · exact Or.inr ⟨l', a, b⟩
    · rw [if_neg hg, h.grp]
      constructor
      · rintro ⟨l', a, b⟩; exact ⟨l', Or.inr a, b⟩
      · rintro ⟨l', (⟨a, rfl⟩ | a), b⟩
        · exact absurd b.symm hg
        · exact ⟨l', a, b⟩
  · intro k; rw [e4]; exact addToSets_nodup _ _ i h.setN k
  · intro k j
    rw [e4, mem_addToSets, h.set]
    simp only [hL]
    constructor
    · rintro (⟨l', a, b⟩ | ⟨a, rfl⟩)
      · exact ⟨l', Or.inr a, b⟩
      · exact ⟨l, Or.inl ⟨rfl, rfl⟩, a⟩
    · rintro ⟨l', (⟨a, rfl⟩ | a), b⟩
      · exact Or.inr ⟨b, a⟩
      · exact Or.inl ⟨l', a, b⟩
  · intro j; rw [e6, e7]; exact h.np j
  · intro j; rw [e6, e7]; exact h.pn j
  · intro j
    rw [e6, e1]
    by_cases hj : j = i
    · subst hj; rw [upd_same, hv]; simp
    · rw [upd_other _ hj]; exact h.self j

/-- Giving a voice a disabled layer keeps the invariant. -/
theorem VInv.playDisabled {s : VM} (h : VInv e s) (i l : Nat) (v : Voice) (hi : (s.voices i).layer = none)
    (hsz : i < s.size) (hd : (e.regions l).disabled = true) (hv : v.layer = some l) (hst : v.state = .cleanMeUp) :
    VInv e (setVoice s i v) := by
  have hL : ∀ j l', Listed e (setVoice s i v) j l' ↔ Listed e s j l' := by
    intro j l'
    unfold Listed
    by_cases hj : j = i
    · subst hj; rw [setVoice_self, hv, hi]
      constructor
      · rintro ⟨a, b⟩; injection a with a; subst a; rw [hd] at b; cases b
      · rintro ⟨a, _⟩; cases a
    · rw [setVoice_other _ hj]
  constructor
  · intro j
    by_cases hj : j = i
    · subst hj; rw [setVoice_self, hv, hst]; simp
    · rw [setVoice_other _ hj]; exact h.idle j
  · intro j hj
    have : s.size ≤ j := hj
    rw [setVoice_other _ (by omega)]; exact h.out j hj
  · intro j l'
    by_cases hj : j = i
    · subst hj; rw [setVoice_self]; intro _ _; exact hst
    · rw [setVoice_other _ hj]; exact h.dis j l'
  · intro j
    by_cases hj : j = i
    · subst hj; rw [setVoice_self, hv]; simp
    · rw [setVoice_other _ hj]; exact h.idleOff j
  · exact h.actN
  · intro j; simp only [hL]; exact h.act j
  · exact h.grpN
  · intro g j; simp only [hL]; exact h.grp g j
  · exact h.setN
  · intro k j; simp only [hL]; exact h.set k j
  · exact h.np
  · exact h.pn
  · intro j
    by_cases hj : j = i
    · subst hj; rw [setVoice_self, hv]; simp
    · rw [setVoice_other _ hj]; exact h.self j

/-- What `voiceStart` leaves: only voice `i` differs, it plays layer `l` and was triggered by an event of the same type. -/
structure Started (s s' : VM) (i l : Nat) (t : EvType) : Prop where
  size : s'.size = s.size
  required : s'.required = s.required
  setLimits : s'.setLimits = s.setLimits
  limits : ∀ g, (s'.groups g).limit = (s.groups g).limit
  other : ∀ j, j ≠ i → s'.voices j = s.voices j
  layer : (s'.voices i).layer = some l
  type : (s'.voices i).trig.type = t
  offed : (s'.voices i).offed = (s.voices i).offed

theorem setVoice_setVoice (s : VM) (i : Nat) (v w : Voice) : setVoice (setVoice s i v) i w = setVoice s i w := by
  simp only [setVoice]
  congr 1
  funext j
  simp [Midi.upd]
  split <;> rfl

theorem onPlaying_setVoice (s : VM) (i l : Nat) (v : Voice) :
    (setVoice (onPlaying e s i l) i v) = { onPlaying e s i l with voices := Midi.upd s.voices i v } := rfl

theorem voiceStart_ok {s : VM} (h : VInv e s) (m : Midi.State) (i l : Nat) (d : Int) (t : Trig)
    (hi : (s.voices i).layer = none) (hsz : i < s.size) :
    ∃ s' ok, voiceStart e s m i l d t = some (s', ok) ∧ VInv e s' ∧ Started s s' i l t.type ∧
      s'.next = s.next ∧ s'.prev = s.prev := by
  have hst : (s.voices i).state = .idle := (h.idle i).mpr hi
  unfold voiceStart
  simp only [setVoice_self]
  generalize hv1 : armed e m l t (s.voices i) = v1
  have hv1l : v1.layer = some l := by rw [← hv1]; rfl
  have hv1s : v1.state = .idle := by rw [← hv1]; exact hst
  have hv1o : v1.offed = (s.voices i).offed := by rw [← hv1]; rfl
  have hv1t : v1.trig.type = t.type := by rw [← hv1]; rfl
  by_cases hd : (e.regions l).disabled = true
  · simp only [hd, if_true]
    have hsw : switchState e (setVoice s i v1) i .cleanMeUp = some (setVoice s i { v1 with state := .cleanMeUp }) := by
      unfold switchState
      rw [if_neg (by rw [setVoice_self, hv1s]; decide)]
      simp only [setVoice_self, setVoice_setVoice]
    rw [hsw]
    refine ⟨_, _, rfl, h.playDisabled i l _ hi hsz hd hv1l rfl, ?_, rfl, rfl⟩
    exact ⟨rfl, rfl, rfl, fun _ => rfl, fun j hj => setVoice_other _ hj _, by rw [setVoice_self]; exact hv1l,
      by rw [setVoice_self]; exact hv1t, by rw [setVoice_self]; exact hv1o⟩
  · simp only [hd, Bool.false_eq_true, if_false]
    simp only [setVoice_setVoice]
    generalize hd0 : (if d < 0 then 0 else d : Int) = d0
    generalize hv2 : timed e m l d0 v1 = v2
    have hv2l : v2.layer = some l := by rw [← hv2]; exact hv1l
    have hv2s : v2.state = .idle := by rw [← hv2]; exact hv1s
    have hv2o : v2.offed = (s.voices i).offed := by rw [← hv2]; exact hv1o
    have hv2t : v2.trig.type = t.type := by rw [← hv2]; exact hv1t
    let sp := onPlaying e (setVoice s i { v2 with state := .playing }) i l
    have hsw : switchState e (setVoice s i v2) i .playing = some sp := by
      unfold switchState
      rw [if_neg (by rw [setVoice_self, hv2s]; decide)]
      simp only [setVoice_self, setVoice_setVoice]
      split
      · rename_i hn; rw [hv2l] at hn; cases hn
      · rename_i l' hn; rw [hv2l] at hn; cases hn; rfl
    rw [hsw]
    simp only [Option.bind_eq_bind, Option.bind_some]
    have key : ∀ v : Voice, v.layer = some l → v.state ≠ .idle → v.trig.type = t.type → v.offed = (s.voices i).offed →
        VInv e (setVoice sp i v) ∧ Started s (setVoice sp i v) i l t.type ∧ (setVoice sp i v).next = s.next ∧
          (setVoice sp i v).prev = s.prev := by
      intro v a b c d
      have hvoices : (setVoice sp i v).voices = Midi.upd s.voices i v := by
        funext j
        by_cases hj : j = i
        · subst hj; rw [setVoice_self, upd_same]
        · rw [setVoice_other _ hj, upd_other _ hj]
          exact setVoice_other _ hj _
      refine ⟨h.play i l v hi hsz (by simpa using hd) a b hvoices rfl rfl rfl ?_ rfl rfl, ?_, rfl, rfl⟩
      · intro g
        show ((Midi.upd s.groups _ _) g).voices = _
        by_cases hg : g = (e.regions l).group
        · subst hg; rw [upd_same, if_pos rfl]; rfl
        · rw [upd_other _ hg, if_neg hg]
      · refine ⟨rfl, rfl, rfl, ?_, ?_, ?_, ?_, ?_⟩
        · intro g
          show ((Midi.upd s.groups _ _) g).limit = _
          by_cases hg : g = (e.regions l).group
          · subst hg; rw [upd_same]; rfl
          · rw [upd_other _ hg]
        · intro j hj; rw [hvoices, upd_other _ hj]
        · rw [hvoices, upd_same]; exact a
        · rw [hvoices, upd_same]; exact c
        · rw [hvoices, upd_same]; exact d
    have hspv : sp.voices i = { v2 with state := .playing } := setVoice_self _ _ _
    by_cases hp : (!(e.regions l).oscillator && !e.promise l) = true
    · simp only [hp, if_true]
      have hsw2 : switchState e sp i .cleanMeUp = some (setVoice sp i { v2 with state := .cleanMeUp }) := by
        unfold switchState
        rw [if_neg (by rw [hspv]; simp)]
        simp only [hspv]
      rw [hsw2]
      obtain ⟨k1, k2, k3, k4⟩ := key { v2 with state := .cleanMeUp } hv2l (by simp) hv2t hv2o
      exact ⟨_, _, rfl, k1, k2, k3, k4⟩
    · simp only [hp, Bool.false_eq_true, if_false]
      generalize hv3 : ready e m l d0 (sp.voices i) = v3
      have hv3' : v3.layer = some l ∧ v3.state = .playing ∧ v3.trig.type = t.type ∧ v3.offed = (s.voices i).offed := by
        rw [← hv3, hspv]
        simp only [ready]
        split_ifs <;> simp [hv2l, hv2t, hv2o]
      obtain ⟨k1, k2, k3, k4⟩ := key v3 hv3'.1 (by rw [hv3'.2.1]; decide) hv3'.2.2.1 hv3'.2.2.2
      exact ⟨_, _, rfl, k1, k2, k3, k4⟩

/-- Adding a lone voice to a ring. -/
theorem addToRing_inv {s : VM} (h : VInv e s) (head : Option Nat) (i : Nat) (hi : s.next i = i)
    (hl : (s.voices i).layer ≠ none) (hh : ∀ a, head = some a → (s.voices a).layer ≠ none) :
    VInv e (addToRing s head i).1 ∧ (addToRing s head i).1.voices = s.voices ∧
      ∃ a, (addToRing s head i).2 = some a ∧ (s.voices a).layer ≠ none := by
  have hpi : s.prev i = i := by have := h.pn i; rw [hi] at this; exact this
  refine ⟨?_, rfl, ?_⟩
  · have inj := h.next_inj e
    have pinj : ∀ a b, s.prev a = s.prev b → a = b := fun a b hab => by
      have := congrArg s.next hab; rwa [h.np, h.np] at this
    generalize hn : head.getD i = nx
    have hnl : (s.voices nx).layer ≠ none := by
      cases head with
      | none => simp at hn; subst hn; exact hl
      | some a => simp at hn; subst hn; exact hh a rfl
    have e1 : ∀ j, (addToRing s head i).1.next j = if j = s.prev nx then i else if j = i then nx else s.next j := by
      intro j; simp [addToRing, Midi.upd, hn]
    have e2 : ∀ j, (addToRing s head i).1.prev j = if j = nx then i else if j = i then s.prev nx else s.prev j := by
      intro j; simp [addToRing, Midi.upd, hn]
    have hpl : (s.voices (s.prev nx)).layer ≠ none := by
      intro hc
      have := h.self _ hc
      rw [h.np] at this
      rw [← this] at hc
      exact hnl hc
    refine ⟨h.idle, h.out, h.dis, h.idleOff, h.actN, h.act, h.grpN, h.grp, h.setN, h.set, ?_, ?_, ?_⟩
    · intro j
      rw [e2]
      by_cases h1 : j = nx
      · subst h1
        rw [if_pos rfl, e1]
        by_cases h2 : i = s.prev j
        · rw [if_pos h2]
          have := congrArg s.next h2; rw [h.np, hi] at this; exact this
        · rw [if_neg h2, if_pos rfl]
      · rw [if_neg h1]
        by_cases h2 : j = i
        · subst h2; rw [if_pos rfl, e1, if_pos rfl]
        · rw [if_neg h2, e1]
          have h3 : s.prev j ≠ s.prev nx := fun hc => h1 (pinj _ _ hc)
          have h4 : s.prev j ≠ i := by
            intro hc
            have := congrArg s.next hc; rw [h.np, hi] at this; exact h2 this
          rw [if_neg h3, if_neg h4, h.np]
    · intro j
      rw [e1]
      by_cases h1 : j = s.prev nx
      · rw [if_pos h1, e2]
        by_cases h2 : i = nx
        · rw [if_pos h2, h1, ← h2, hpi]
        · rw [if_neg h2, if_pos rfl, h1]
      · rw [if_neg h1]
        by_cases h2 : j = i
        · rw [if_pos h2, e2, if_pos rfl, h2]
        · rw [if_neg h2, e2]
          have h3 : s.next j ≠ nx := by
            intro hc; apply h1; rw [← hc, h.pn]
          have h4 : s.next j ≠ i := by
            intro hc
            have := congrArg s.prev hc; rw [h.pn, hpi] at this; exact h2 this
          rw [if_neg h3, if_neg h4, h.pn]
    · intro j hj
      have hj' : (s.voices j).layer = none := hj
      rw [e1]
      have h1 : j ≠ s.prev nx := by rintro rfl; exact hpl hj'
      have h2 : j ≠ i := by rintro rfl; exact hl hj'
      rw [if_neg h1, if_neg h2]; exact h.self j hj'
  · cases head with
    | none => exact ⟨i, rfl, hl⟩
    | some a => exact ⟨a, rfl, hh a rfl⟩

theorem findLoop_mem (s : VM) : ∀ (l : List Nat) (best : Option Nat) (i : Nat), findLoop s l best = some i →
    i ∈ l ∧ offedOrFree s i = true ∨ best = some i := by
  intro l
  induction l with
  | nil => intro b i h; exact Or.inr h
  | cons a tl ih =>
    intro b i h
    unfold findLoop at h
    split at h
    · rename_i hf
      injection h with h; subst h
      refine Or.inl ⟨by simp, ?_⟩
      simp only [isFree, decide_eq_true_eq] at hf
      simp [offedOrFree, hf]
    · split at h
      · rename_i ho
        cases b with
        | none =>
          rcases ih _ _ h with ⟨h1, h2⟩ | h1
          · exact Or.inl ⟨by simp [h1], h2⟩
          · injection h1 with h1; subst h1; exact Or.inl ⟨by simp, ho⟩
        | some b =>
          simp only at h
          rcases ih _ _ h with ⟨h1, h2⟩ | h1
          · exact Or.inl ⟨by simp [h1], h2⟩
          · split at h1
            · injection h1 with h1; subst h1; exact Or.inl ⟨by simp, ho⟩
            · exact Or.inr h1
      · rcases ih _ _ h with ⟨h1, h2⟩ | h1
        · exact Or.inl ⟨by simp [h1], h2⟩
        · exact Or.inr h1

theorem findFreeVoice_ok (s : VM) (i : Nat) (h : findFreeVoice s = some i) :
    i < s.size ∧ ¬ Sounds s i := by
  rcases findLoop_mem s _ _ i h with ⟨h1, h2⟩ | h1
  · exact ⟨by simpa using h1, by simp [Sounds, h2]⟩
  · cases h1

/-- The outcome of a start of layer `l`: the checks choked voices (`s1`), then voice `i`, silent until now, may
have been taken for the layer. -/
structure StartOk (e : Env) (s s' : VM) (l : Nat) (t : EvType) : Prop where
  inv : VInv e s'
  size : s'.size = s.size
  required : s'.required = s.required
  setLimits : s'.setLimits = s.setLimits
  limits : ∀ g, (s'.groups g).limit = (s.groups g).limit
  layers : ∀ j, (s.voices j).layer ≠ none → (s'.voices j).layer ≠ none
  how : ∃ s1, OffVM s s1 ∧ Room s s1 e l ∧
    (s' = s1 ∨ ∃ i, i < s.size ∧ ¬ Sounds s1 i ∧ (s'.voices i).layer = some l ∧ (s'.voices i).trig.type = t ∧
      (s'.voices i).offed = false ∧ ∀ j, j ≠ i → s'.voices j = s1.voices j)

theorem startVoice_ok {s : VM} (h : VInv e s) (hl : LimitsOk e s) (m : Midi.State) (l : Nat) (d : Int) (t : Trig)
    (head : Option Nat) (hh : ∀ a, head = some a → (s.voices a).layer ≠ none) :
    ∃ s' head', startVoice e s m l d t head = some (s', head') ∧ StartOk e s s' l t.type ∧
      ∀ a, head' = some a → (s'.voices a).layer ≠ none := by
  obtain ⟨s1, a1, b1, r1⟩ := checkPolyphony_ok h hl l d t
  have h1 := h.soft b1.soft
  have lay1 : ∀ j, (s1.voices j).layer = (s.voices j).layer := fun j => (b1.soft.voices j).layer
  unfold startVoice
  rw [a1]
  simp only [Option.bind_eq_bind, Option.bind_some]
  cases hf : findFreeVoice s1 with
  | none =>
    refine ⟨s1, head, rfl, ⟨h1, b1.soft.links.size, b1.soft.links.required, b1.soft.links.setLimits,
      fun g => by rw [b1.soft.links.groups], fun j hj => by rw [lay1]; exact hj, s1, b1, r1, Or.inl rfl⟩, ?_⟩
    intro a ha; rw [lay1]; exact hh a ha
  | some i =>
    obtain ⟨hi1, hi2⟩ := findFreeVoice_ok s1 i hf
    have hsz : s1.size = s.size := b1.soft.links.size
    obtain ⟨s2, a2, h2, v2, sz2, rq2, sl2, gl2, _⟩ := reset_ok e h1 i
    have hl2 : (s2.voices i).layer = none := by rw [v2, upd_same]; rfl
    obtain ⟨s3, ok, a3, h3, st3, n3, p3⟩ := voiceStart_ok h2 m i l d t hl2 (by rw [sz2]; exact hi1)
    have hso : StartOk e s s3 l t.type := by
      refine ⟨h3, st3.size.trans (sz2.trans hsz), st3.required.trans (rq2.trans b1.soft.links.required),
        st3.setLimits.trans (sl2.trans b1.soft.links.setLimits), ?_, ?_, s1, b1, r1, Or.inr
          ⟨i, by rw [← hsz]; exact hi1, hi2, st3.layer, st3.type, ?_, ?_⟩⟩
      · intro g; rw [st3.limits, gl2, b1.soft.links.groups]
      · intro j hj
        by_cases hji : j = i
        · subst hji; rw [st3.layer]; simp
        · rw [st3.other j hji, v2, upd_other _ hji, lay1]; exact hj
      · rw [st3.offed, v2, upd_same]; rfl
      · intro j hj; rw [st3.other j hj, v2, upd_other _ hj]
    have hh3 : ∀ a, head = some a → (s3.voices a).layer ≠ none := fun a ha => hso.layers a (hh a ha)
    simp only [a2, a3, Option.bind_some]
    cases ok with
    | false => exact ⟨s3, head, rfl, hso, hh3⟩
    | true =>
      have hself : s3.next i = i := by rw [n3]; exact h2.self i hl2
      obtain ⟨i1, i2, a, i3, i4⟩ := addToRing_inv h3 head i hself (by rw [st3.layer]; simp) hh3
      refine ⟨(addToRing s3 head i).1, (addToRing s3 head i).2, rfl, ⟨i1, hso.size, hso.required, hso.setLimits, hso.limits, ?_, ?_⟩, ?_⟩
      · intro j hj; rw [i2]; exact hso.layers j hj
      · obtain ⟨s1', c1, c2, c3⟩ := hso.how
        refine ⟨s1, b1, r1, Or.inr ⟨i, by rw [← hsz]; exact hi1, hi2, ?_, ?_, ?_, ?_⟩⟩
        · rw [i2]; exact st3.layer
        · rw [i2]; exact st3.type
        · rw [i2, st3.offed, v2, upd_same]; rfl
        · intro j hj; rw [i2, st3.other j hj, v2, upd_other _ hj]
      · intro b hb
        rw [i3] at hb; cases hb
        rw [i2]; exact i4

end Verif.Engine
