import Verif.Engine.ReleasesNow
import Mathlib.Tactic.IntervalCases

/-! C51: exactly which voices a note-on turns off. -/
namespace Verif.Engine

open Verif.Layer (Region)
open Verif.Range (containsWithEnd)

variable {c : Cfg}

/-! ### Specification -/

/-- No region plays when a key is released. -/
def NoReleases (c : Cfg) : Prop := ∀ l, l < c.numLayers → (c.regions l).trigger ≠ .release ∧ (c.regions l).trigger ≠ .releaseKey

/-- The call that led from `s` to `s'` has started a voice of layer `l`. -/
def Begun (s s' : E) (l : Nat) : Prop := ∃ j, (s.vm.voices j).state = .idle ∧ (s'.vm.voices j).layer = some l

/-- What remains of a voice that is turned off at frame `d`: the same note, fading out, or to be cleaned up if it had not begun to sound. -/
structure Choked (d : Int) (v v' : Voice) : Prop where
  offed : v'.offed = true
  same : v'.layer = v.layer ∧ v'.trig = v.trig ∧ v'.age = v.age ∧ v'.triggerDelay = v.triggerDelay
  fades : v.state = .playing → v'.released = true
  waited : v.state = .playing → v'.state = if v.egDelay > d then .cleanMeUp else .playing

/-! ### Lemmas -/

theorem choked_offRec (v : Voice) (d : Int) : Choked d v (offRec v d) := by
  obtain ⟨k1, k2, k3, k4, k5, k6, _⟩ := offRec_keeps v d
  refine ⟨k3, ⟨k6, k5, k1, k2⟩, ?_, ?_⟩ <;> intro h <;> simp [offRec, releaseRec, h]

/-- Without release regions, the note-off of a choked voice starts nothing. -/
theorem noteOffDispatch_quiet (hq : NoReleases c) {f : Nat} {s s' : E} {d n : Int} {v : ℚ} (h : noteOffDispatch c f s d n v = some s') :
    s'.vm = s.vm := by
  cases f with
  | zero => cases h
  | succ f =>
    unfold noteOffDispatch at h
    simp only [Option.bind_eq_bind, Option.bind_eq_some_iff, Option.pure_def, Option.some.injEq, Prod.exists] at h
    obtain ⟨s1, head, h1, rfl⟩ := h
    have key : ∀ (L : List Nat) (sh sh' : E × Option Nat), (∀ l ∈ L, l < c.numLayers) →
        L.foldlM (noteOffLayer c (noteOffDispatch c f) d n v (c.rand s.draws)) sh = some sh' → sh'.1.vm = sh.1.vm := by
      intro L
      induction L with
      | nil => intro sh sh' _ h; cases h; rfl
      | cons a L ih =>
        intro sh sh' hL h
        rw [List.foldlM_cons, Option.bind_eq_bind, Option.bind_eq_some_iff] at h
        obtain ⟨sh1, h1, h2⟩ := h
        refine (ih _ _ (fun l hl => hL l (by simp [hl])) h2).trans ?_
        unfold noteOffLayer at h1
        simp only [registerNoteOff_quiet (hq a (hL a (by simp))), Bool.false_eq_true, if_false] at h1
        cases h1; rfl
    rw [key _ _ _ (fun l hl => by unfold noteLayers at hl; simp at hl; exact hl.1) h1, noteOffSwitches_vm]
    rfl

theorem checkOffGroup_soft {e : Env} {s : VM} {cc : Nat → Bool} {i : Nat} {r : Region} {d n : Int} {vm : VM} {hit : Bool}
    (h : checkOffGroup e s cc i r d n = some (vm, hit)) : SoftVM s vm := by
  rcases checkOffGroup_off h with ⟨_, rfl⟩ | ⟨_, h⟩
  · exact SoftVM.refl _
  · exact off_soft h

/-- The voices that `TurnedOff` names depend on the conditions of the layers only. -/
theorem turnedOff_congr {s s1 : E} (h : ∀ l, (s1.layers l).ccSwitched = (s.layers l).ccSwitched) (r : Region) (n : Int) (v : Voice) :
    TurnedOff c s1 r n v ↔ TurnedOff c s r n v := by
  have : ∀ l, Layer.ccAll (s1.layers l) = Layer.ccAll (s.layers l) := fun l => by unfold Layer.ccAll; rw [h l]
  unfold TurnedOff
  simp only [this]

open Classical in
/-- The choke loop of a note. -/
theorem checkOffGroups_quiet (hq : NoReleases c) {f : Nat} {r : Region} {d n : Int} {s s' : E}
    (hs : checkOffGroups c (noteOffDispatch c f) r d n false s = some s') :
    SoftVM s.vm s'.vm ∧ (∀ l, (s'.layers l).ccSwitched = (s.layers l).ccSwitched) ∧
    ∀ i, s'.vm.voices i = if i < s.vm.size ∧ TurnedOff c s r n (s.vm.voices i) then offRec (s.vm.voices i) d else s.vm.voices i := by
  have hcc : ∀ l, (s'.layers l).ccSwitched = (s.layers l).ccSwitched := fun l =>
    congrArg Core.ccSwitched ((checkOffGroups_atoms (noteOffDispatch_atoms f) hs).frame.2.2 l)
  have key : ∀ (L : List Nat) (s1 s' : E), L.Nodup → (∀ l, (s1.layers l).ccSwitched = (s.layers l).ccSwitched) →
      (∀ i ∈ L, s1.vm.voices i = s.vm.voices i) →
      L.foldlM (chokeOne c (noteOffDispatch c f) r d n false) s1 = some s' →
      SoftVM s1.vm s'.vm ∧
      ∀ i, s'.vm.voices i = if i ∈ L ∧ TurnedOff c s r n (s.vm.voices i) then offRec (s.vm.voices i) d else s1.vm.voices i := by
    intro L
    induction L with
    | nil => intro s1 s' _ _ _ h; cases h; exact ⟨SoftVM.refl _, by simp⟩
    | cons a tl ih =>
      intro s1 s' hnd h1 h4 hs
      rw [List.foldlM_cons, Option.bind_eq_bind, Option.bind_eq_some_iff] at hs
      obtain ⟨s2, g1, g2⟩ := hs
      obtain ⟨hna, hnd⟩ := List.nodup_cons.mp hnd
      have hcore := (chokeOne_atoms (noteOffDispatch_atoms f) g1).frame.2.2
      unfold chokeOne at g1
      rw [Option.bind_eq_bind, Option.bind_eq_some_iff] at g1
      obtain ⟨⟨vm, hit⟩, q1, q2⟩ := g1
      have hx := checkOffGroup_exact q1
      rw [h4 a (by simp)] at hx
      have hx : hit = true ↔ TurnedOff c s r n (s.vm.voices a) := hx.trans (turnedOff_congr h1 r n (s.vm.voices a))
      have hvm : s2.vm = vm := by
        simp only at q2
        split at q2
        · split at q2
          · exact noteOffDispatch_quiet hq q2
          · cases q2; rfl
        · cases q2; rfl
      have hoth : ∀ i, i ≠ a → vm.voices i = s1.vm.voices i := by
        intro i hi
        rcases checkOffGroup_off q1 with ⟨_, rfl⟩ | ⟨_, h⟩
        · rfl
        · exact (off_writes h).other hi
      have hata : vm.voices a = if TurnedOff c s r n (s.vm.voices a) then offRec (s.vm.voices a) d else s.vm.voices a := by
        rcases checkOffGroup_off q1 with ⟨rfl, rfl⟩ | ⟨rfl, h⟩
        · rw [if_neg (fun h => by simpa using hx.mpr h), h4 a (by simp)]
        · rw [(off_writes h).at, h4 a (by simp), if_pos (hx.mp rfl)]
      obtain ⟨r1, r2⟩ := ih s2 s' hnd (fun l => (congrArg Core.ccSwitched (hcore l)).trans (h1 l))
        (fun i hi => by rw [hvm]; exact (hoth i (by rintro rfl; exact hna hi)).trans (h4 i (by simp [hi]))) g2
      rw [hvm] at r1 r2
      refine ⟨(checkOffGroup_soft q1).trans r1, fun i => ?_⟩
      rw [r2 i]
      by_cases hia : i = a
      · subst hia
        simp only [hna, false_and, if_false, List.mem_cons, true_or, true_and]
        rw [hata, h4 i (by simp)]
      · simp only [List.mem_cons, hia, false_or, hoth i hia]
  obtain ⟨k1, k2⟩ := key _ s s' List.nodup_range (fun _ => rfl) (fun _ _ => rfl) hs
  exact ⟨k1, hcc, by simpa only [List.mem_range] using k2⟩

theorem Fits.soft {e : Env} {s s' : VM} {L : List Nat} {k : Nat} (h : Fits e s L k) (hs : SoftVM s s') : Fits e s' L k := by
  have hb : busy s' = busy s := by
    unfold busy
    rw [hs.links.size]
    simp only [ne_eq, (hs.voices _).idle]
  refine ⟨?_, ?_, ?_, ?_, ?_⟩
  · rw [hb, hs.links.size]; exact h.size
  · rw [hb, hs.links.required]; exact h.engine
  · rw [hb]; exact h.region
  · rw [hb, hs.links.groups]; exact h.group
  · rw [hb, hs.links.setLimits]; exact h.sets

theorem Good.soft {e : Env} {s s' : VM} {head : Option Nat} (h : Good e s head) (hs : SoftVM s s') : Good e s' head := by
  refine ⟨h.1.soft hs, fun he => ?_, fun a ha => by rw [(hs.voices a).layer]; exact h.2.2 a ha⟩
  obtain ⟨q1, q2, q3, q4⟩ := h.2.1 he
  exact ⟨by rw [hs.links.required]; exact q1, fun g => by rw [hs.links.groups]; exact q2 g, fun k => by rw [hs.links.setLimits]; exact q3 k, q4⟩

/-- With room, a start of any kind takes one idle voice and touches no other. -/
theorem start_room_any {e : Env} {s : VM} {head : Option Nat} (hg : Good e s head) {L : List Nat} {l k : Nat} (hl : l ∈ L)
    (hf : Fits e s L (k + 1)) (hc : CanPlay e l) {m : Midi.State} {d : Int} {t : Trig} {s' : VM} {head' : Option Nat}
    (h : startVoice e s m l d t head = some (s', head')) :
    Good e s' head' ∧ Fits e s' L k ∧ s'.size = s.size ∧
      ∃ i, (s.voices i).state = .idle ∧ (s'.voices i).layer = some l ∧ ∀ j, j ≠ i → s'.voices j = s.voices j := by
  obtain ⟨hi, hlim, hh⟩ := hg
  obtain ⟨s1, head1, h1, h2, h3⟩ := startVoice_ok hi hlim m l d t head hh
  rw [h] at h1; cases h1
  have hfl : Fits e s [l] (k + 1) := ⟨hf.size, hf.engine, fun a ha => by simp only [List.mem_singleton] at ha; subst ha; exact hf.region _ hl,
    fun a ha => by simp only [List.mem_singleton] at ha; subst ha; exact hf.group _ hl,
    fun a ha => by simp only [List.mem_singleton] at ha; subst ha; exact hf.sets _ hl⟩
  obtain ⟨i, i1, i2, i3⟩ := findFree_idle (s := s) (by have := hf.size; omega)
  have hstart := h
  unfold startVoice at hstart
  rw [checkPolyphony_id hi hfl hc, Option.bind_eq_bind, Option.bind_some] at hstart
  simp only [i2, Option.bind_eq_bind, Option.bind_eq_some_iff, Prod.exists] at hstart
  obtain ⟨s2, r1, s3, ok, r2, r3⟩ := hstart
  have hok := voiceStart_plays hc r2
  subst hok
  obtain ⟨rec, w1, w2⟩ := voiceStart_writes r2
  have w3 : rec = startRec e m l (if d < 0 then 0 else d) t (cleared (s.voices i)) := by
    rcases w2 with ⟨_, h⟩ | ⟨h, _⟩
    · cases h
    · rw [(reset_writes r1).at] at h; exact h
  have w := (reset_writes r1).trans w1
  have hvs : s'.voices = s3.voices := by
    simp only [if_true, Option.pure_def, Option.some.injEq] at r3
    rw [show s' = (addToRing s3 head i).1 by rw [r3]]
    rfl
  have hat : s'.voices i = startRec e m l (if d < 0 then 0 else d) t (cleared (s.voices i)) := by rw [hvs, w.at, w3]
  have hother : ∀ j, j ≠ i → s'.voices j = s.voices j := fun j hj => by rw [hvs, w.other hj]
  obtain ⟨_, _, _, _, _, _, k7, k8⟩ := startRec_keeps e m l (if d < 0 then 0 else d) t (s.voices i)
  have hb : busy s' = busy s + 1 := busy_start h2.size i1 i3 (by rw [hat, k8]; simp) hother
  refine ⟨⟨h2.inv, ?_, h3⟩, ?_, h2.size, i, i3, by rw [hat]; exact k7, hother⟩
  · intro hs
    obtain ⟨q1, q2, q3, q4⟩ := hlim hs
    exact ⟨by rw [h2.required]; exact q1, fun g => by rw [h2.limits]; exact q2 g, fun a => by rw [h2.setLimits]; exact q3 a, q4⟩
  · exact ⟨by rw [hb, h2.size]; have := hf.size; omega, by rw [hb, h2.required]; have := hf.engine; omega,
      fun a ha => by rw [hb]; have := hf.region a ha; omega,
      fun a ha => by rw [hb, h2.limits]; have := hf.group a ha; omega,
      fun a ha b hb' => by rw [hb, h2.setLimits]; have := hf.sets a ha b hb'; omega⟩

open Classical in
/-- What is known in the course of a note-on, with the regions `F` started so far and room for `k` more voices. -/
structure Mid (c : Cfg) (s0 : E) (n d : Int) (F : Nat → Prop) (k : Nat) (sh : E × Option Nat) : Prop where
  good : Good c.toEnv sh.1.vm sh.2
  fits : Fits c.toEnv sh.1.vm (noteLayers c n) k
  cc : ∀ l, (sh.1.layers l).ccSwitched = (s0.layers l).ccSwitched
  size : sh.1.vm.size = s0.vm.size
  old : ∀ i, (s0.vm.voices i).state ≠ .idle → sh.1.vm.voices i =
    if ∃ l, F l ∧ TurnedOff c s0 (c.regions l) n (s0.vm.voices i) then offRec (s0.vm.voices i) d else s0.vm.voices i
  new : ∀ l, F l ↔ Begun s0 sh.1 l

theorem Mid.layers (hq : NoReleases c) {s0 : E} (hv0 : VInv c.toEnv s0.vm) {n d : Int} {x u : ℚ} : ∀ (L : List Nat) (F : Nat → Prop) (sh sh' : E × Option Nat),
    (∀ l ∈ L, l ∈ noteLayers c n ∧ CanPlay c.toEnv l) → Mid c s0 n d F L.length sh →
    L.foldlM (noteOnLayer c d n x u) sh = some sh' → ∃ F, Mid c s0 n d F 0 sh' := by
  intro L
  induction L with
  | nil => intro F sh sh' _ h hs; cases hs; exact ⟨F, h⟩
  | cons a tl ih =>
    intro F sh sh' hL h hs
    rw [List.foldlM_cons, Option.bind_eq_bind, Option.bind_eq_some_iff] at hs
    obtain ⟨⟨s1, hd1⟩, g1, g2⟩ := hs
    obtain ⟨s, head⟩ := sh
    obtain ⟨ha, hc⟩ := hL a (by simp)
    have hL' : ∀ l ∈ tl, l ∈ noteLayers c n ∧ CanPlay c.toEnv l := fun l hl => hL l (by simp [hl])
    have hcore := noteOnLayer_core g1
    have hcc1 : ∀ l, (s1.layers l).ccSwitched = (s0.layers l).ccSwitched := by
      intro l
      have := congrArg Core.ccSwitched (hcore.2 l)
      refine Eq.trans this ?_
      rw [← h.cc l]
      split
      · rename_i e; subst e
        split <;> rfl
      · rfl
    unfold noteOnLayer at g1
    simp only at g1
    split at g1
    · rw [Option.bind_eq_bind, Option.bind_eq_some_iff] at g1
      obtain ⟨s2, q1, q2⟩ := g1
      obtain ⟨vm, q3, rfl⟩ := start_eq q2
      set sa := setLayer s a (Layer.registerNoteOn (c.regions a) s.midi (s.layers a) n x u).1 with hsa
      have hcca : ∀ l, (sa.layers l).ccSwitched = (s0.layers l).ccSwitched := by
        intro l
        have hx := (checkOffGroups_quiet hq q1).2.1 l
        rw [← hx]
        exact hcc1 l
      obtain ⟨k1, k2, k3⟩ := checkOffGroups_quiet hq q1
      have hgood : Good c.toEnv s2.vm head := Good.soft (s := s.vm) h.good k1
      have hfits : Fits c.toEnv s2.vm (noteLayers c n) (tl.length + 1) := Fits.soft (s := s.vm) h.fits k1
      obtain ⟨b1, b2, b3, i, b4, b5, b6⟩ := start_room_any hgood ha hfits hc q3
      have hidle : (s.vm.voices i).state = .idle := (k1.voices i).idle.mp b4
      have h0 : ∀ j, (s.vm.voices j).state = .idle → (s0.vm.voices j).state = .idle := by
        intro j hj
        by_contra hne
        have := h.old j hne
        simp only at this
        rw [this] at hj
        split at hj
        · have e1 : (s0.vm.voices j).layer = none := by
            have := (h.good.1.idle j).mp (by rw [‹s.vm.voices j = _›, if_pos ‹_›]; exact hj)
            rw [‹s.vm.voices j = _›, if_pos ‹_›, (offRec_keeps _ d).2.2.2.2.2.1] at this
            exact this
          exact hne ((hv0.idle j).mpr e1)
        · exact hne hj
      refine ih (fun l => F l ∨ l = a) _ sh' hL' ⟨b1, b2, hcc1, ?_, ?_, ?_⟩ g2
      · exact b3.trans (k1.links.size.trans h.size)
      · intro j hj
        have hji : j ≠ i := fun e => hj (h0 j (e ▸ hidle))
        simp only
        rw [b6 j hji, k3 j]
        have hjs : j < sa.vm.size := by
          by_contra hc
          have := h.good.1.out j (by simpa [hsa, setLayer] using hc)
          exact hj (h0 j ((h.good.1.idle j).mpr this))
        have hold := h.old j hj
        simp only at hold
        have hvoice : sa.vm.voices j = s.vm.voices j := rfl
        rw [hvoice, hold]
        by_cases hF : ∃ l, F l ∧ TurnedOff c s0 (c.regions l) n (s0.vm.voices j)
        · rw [if_pos hF, if_neg, if_pos]
          · obtain ⟨l, hl, ht⟩ := hF; exact ⟨l, Or.inl hl, ht⟩
          · rintro ⟨_, ht⟩
            have := ht.1
            rw [(offRec_keeps _ d).2.2.1] at this; cases this
        · rw [if_neg hF]
          by_cases ht : TurnedOff c s0 (c.regions a) n (s0.vm.voices j)
          · rw [if_pos ⟨hjs, (turnedOff_congr hcca _ _ _).mpr ht⟩, if_pos ⟨a, Or.inr rfl, ht⟩]
          · rw [if_neg (fun hh => ht ((turnedOff_congr hcca _ _ _).mp hh.2)), if_neg]
            rintro ⟨l, hl | rfl, ht'⟩
            · exact hF ⟨l, hl, ht'⟩
            · exact ht ht'
      · intro l
        have hlay : ∀ j, j ≠ i → (vm.voices j).layer = (s.vm.voices j).layer := fun j hj => by
          rw [b6 j hj]; exact (k1.voices j).layer
        have hnone : (s.vm.voices i).layer = none := (h.good.1.idle i).mp hidle
        constructor
        · rintro (hl | rfl)
          · obtain ⟨j, p1, p2⟩ := (h.new l).mp hl
            simp only at p2
            have hji : j ≠ i := by rintro rfl; rw [hnone] at p2; cases p2
            exact ⟨j, p1, by simp only; rw [hlay j hji]; exact p2⟩
          · exact ⟨i, h0 i hidle, b5⟩
        · rintro ⟨j, p1, p2⟩
          simp only at p2
          by_cases hji : j = i
          · subst hji; rw [b5] at p2; cases p2; exact Or.inr rfl
          · rw [hlay j hji] at p2
            exact Or.inl ((h.new l).mpr ⟨j, p1, p2⟩)
    · cases g1
      exact ih F (setLayer s a _, hd1) sh' hL' ⟨h.good, ⟨by have := h.fits.size; simp at this ⊢; omega, by have := h.fits.engine; simp at this ⊢; omega,
        fun l hl => by have := h.fits.region l hl; simp at this ⊢; omega, fun l hl => by have := h.fits.group l hl; simp at this ⊢; omega,
        fun l hl b hb => by have := h.fits.sets l hl b hb; simp at this ⊢; omega⟩, hcc1, h.size, h.old, h.new⟩ g2

/-! ### C51 -/

/-- C51 for notes, exactly: after any history on an instrument without release regions, when the limits leave room for the regions of the key,
a note-on turns off the voices whose `off_by` is the group of a region it starts (`TurnedOff`), and leaves every other voice in use alone. -/
theorem off_groups_notes_partial (hq : NoReleases c) (m : Midi.State) (sw : Option Int) (N : Nat) (gl sl : Nat → Nat) (ops : List Op) (s s' : E)
    (hsane : Sane c N gl sl ops) (h : run c (load c m sw N gl sl) ops = some s) (d n : Int) (x : ℚ) (hs : step c s (.noteOn d n x) = some s')
    (hc : ∀ l ∈ noteLayers c n, CanPlay c.toEnv l) (hf : Fits c.toEnv s.vm (noteLayers c n) (noteLayers c n).length) (i : Nat)
    (hi : (s.vm.voices i).state ≠ .idle) :
    ((∃ l, Begun s s' l ∧ TurnedOff c s (c.regions l) n (s.vm.voices i)) → Choked d (s.vm.voices i) (s'.vm.voices i)) ∧
    ((¬ ∃ l, Begun s s' l ∧ TurnedOff c s (c.regions l) n (s.vm.voices i)) → s'.vm.voices i = s.vm.voices i) := by
  obtain ⟨s0, h1, h2, h3, _⟩ := reachable_ok m sw N gl sl ops hsane
  rw [h] at h1; cases h1
  have hs : hdNoteOn c s d n x = some s' := hs
  unfold hdNoteOn noteOnDispatch at hs
  simp only at hs
  rw [Option.bind_eq_bind, Option.bind_eq_some_iff] at hs
  obtain ⟨sh, g1, g2⟩ := hs
  have hvm : s'.vm = sh.1.vm := by cases g2; exact updatePrevious_vm _ _
  have start : ∀ s1 : E, s1.vm = s.vm → s1.layers = s.layers → Mid c s n d (fun _ => False) (noteLayers c n).length (noteOnSwitches c (draw s1) n, none) := by
    intro s1 e1 e2
    have hv : (noteOnSwitches c (draw s1) n).vm = s.vm := by rw [noteOnSwitches_vm]; exact e1
    refine ⟨?_, ?_, ?_, ?_, ?_, ?_⟩
    · simp only [hv]; exact ⟨h2, h3, by simp⟩
    · simp only [hv]; exact hf
    · intro l
      refine (congrArg Core.ccSwitched ((noteOnSwitches_frame (c := c) (draw s1) n).2.2 l)).trans ?_
      show (s1.layers l).ccSwitched = _
      rw [e2]
    · simp only [hv]
    · intro j _; simp [hv]
    · intro l
      simp only [false_iff]
      rintro ⟨j, p1, p2⟩
      simp only [hv] at p2
      rw [(h2.idle j).mp p1] at p2; cases p2
  obtain ⟨F, hF⟩ := Mid.layers hq h2 _ (fun _ => False) _ sh (fun l hl => ⟨hl, hc l hl⟩) (start _ (by split <;> rfl) (by split <;> rfl)) g1
  have hst : ∀ l, F l ↔ Begun s s' l := fun l => by
    rw [hF.new l]; unfold Begun; rw [hvm]
  have hold := hF.old i hi
  rw [hvm]
  constructor
  · rintro ⟨l, p1, p2⟩
    rw [hold, if_pos ⟨l, (hst l).mpr p1, p2⟩]
    exact choked_offRec _ _
  · intro hh
    rw [hold, if_neg (fun ⟨l, p1, p2⟩ => hh ⟨l, (hst l).mp p1, p2⟩)]

/-- Three keys: the first is choked by the second, the third is not. -/
def threeKeys : Cfg := demo [{ keyRange := ⟨60, 60⟩, group := 1, offBy := some 2 }, { keyRange := ⟨62, 62⟩, group := 2 }, { keyRange := ⟨64, 64⟩, group := 3 }]

/-- The state after keys 60 and 64, and after key 62 in addition. -/
def threeBefore : E := (run threeKeys (demoLoad threeKeys 8 8) [.noteOn 0 60 1, .noteOn 0 64 1]).getD (demoLoad threeKeys 8 8)
def threeAfter : E := (step threeKeys threeBefore (.noteOn 5 62 1)).getD threeBefore

theorem some_getD {o : Option E} (x : E) (h : o.isSome = true) : o = some (o.getD x) := by
  cases o with
  | none => cases h
  | some _ => rfl

/-- The hypotheses are met and both cases occur: the voice of key 60 is turned off by key 62, the voice of key 64 is left alone. -/
example : NoReleases threeKeys ∧ (∀ l ∈ noteLayers threeKeys 62, CanPlay threeKeys.toEnv l) ∧
    run threeKeys (demoLoad threeKeys 8 8) [.noteOn 0 60 1, .noteOn 0 64 1] = some threeBefore ∧
    step threeKeys threeBefore (.noteOn 5 62 1) = some threeAfter ∧
    Fits threeKeys.toEnv threeBefore.vm (noteLayers threeKeys 62) (noteLayers threeKeys 62).length ∧
    (threeBefore.vm.voices 0).state = .playing ∧ (threeBefore.vm.voices 1).state = .playing ∧ Begun threeBefore threeAfter 1 ∧
    (threeAfter.vm.voices 0).offed = true ∧ threeAfter.vm.voices 1 = threeBefore.vm.voices 1 := by
  have hl : noteLayers threeKeys 62 = [1] := by decide +kernel
  refine ⟨?_, ?_, some_getD _ (by decide +kernel), some_getD _ (by decide +kernel), ?_, by decide +kernel, by decide +kernel,
    ⟨2, by decide +kernel, by decide +kernel⟩, by decide +kernel, by decide +kernel⟩
  · intro l hl
    have : l < 3 := hl
    interval_cases l <;> decide +kernel
  · intro l h
    rw [hl] at h
    simp only [List.mem_singleton] at h
    subst h
    exact ⟨by decide +kernel, Or.inr (by decide +kernel), by decide +kernel⟩
  · rw [hl]
    refine ⟨by decide +kernel, by decide +kernel, ?_, ?_, ?_⟩
    · intro l h; simp only [List.mem_singleton] at h; subst h; decide +kernel
    · intro l h; simp only [List.mem_singleton] at h; subst h; decide +kernel
    · intro l h a ha; simp only [List.mem_singleton] at h; subst h
      exact absurd ha (by decide +revert +kernel)

end Verif.Engine
