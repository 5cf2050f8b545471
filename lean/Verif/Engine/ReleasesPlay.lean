import Verif.Engine.Releases
import Verif.Engine.VoiceLife
import Verif.Engine.OffGroups

/-! C16: what the lift of the sustain pedal plays. -/
namespace Verif.Engine

open Verif.Layer (Region)
open Verif.Range (containsWithEnd)

/-! ### Specification -/

/-- How many voices are in use. -/
def busy (s : VM) : Nat := ((List.range s.size).filter (fun i => decide ((s.voices i).state ≠ .idle))).length

/-- `k` more voices of the layers `L` stay within the size of the pool and all the limits. -/
structure Fits (e : Env) (s : VM) (L : List Nat) (k : Nat) : Prop where
  size : busy s + k ≤ s.size
  engine : busy s + k ≤ s.required
  region : ∀ l ∈ L, busy s + k ≤ (e.regions l).polyphony
  group : ∀ l ∈ L, busy s + k ≤ (s.groups (e.regions l).group).limit
  sets : ∀ l ∈ L, ∀ a ∈ (e.regions l).ancestors, busy s + k ≤ s.setLimits a

/-- The layer can play: it has sound, and no limit per note. -/
structure CanPlay (e : Env) (l : Nat) : Prop where
  enabled : (e.regions l).disabled = false
  sound : (e.regions l).oscillator = true ∨ e.promise l = true
  note : (e.regions l).notePolyphony = none

/-- A voice plays the release of layer `p.1` for key `p.2.1` pressed with velocity `p.2.2`, from frame `d` on. -/
structure PlaysRelease (e : Env) (m : Midi.State) (d : Int) (p : Nat × Int × ℚ) (v : Voice) : Prop where
  playing : v.state = .playing
  layer : v.layer = some p.1
  type : v.trig.type = .noteOff
  key : v.trig.number = p.2.1
  velocity : v.trig.value = if (e.regions p.1).velocityPrevious then m.velocityOverride else p.2.2
  sounding : v.offed = false ∧ v.released = false
  delay : v.triggerDelay = some (max d 0)

/-- One voice, idle before, has been started for each release of `X`; the other voices are as before. -/
def OneEach (e : Env) (m : Midi.State) (d : Int) (s s' : VM) (X : List (Nat × Int × ℚ)) : Prop :=
  ∃ is : List Nat, is.Nodup ∧
    List.Forall₂ (fun i p => i < s.size ∧ (s.voices i).state = .idle ∧ PlaysRelease e m d p (s'.voices i)) is X ∧
    ∀ j, j ∉ is → s'.voices j = s.voices j

/-- A voice started by a note-on that the region answers to is in use. -/
def attackAlive (s : VM) (r : Region) : Prop :=
  ∃ i, (s.voices i).state ≠ .idle ∧ (s.voices i).trig.type = .noteOn ∧ containsWithEnd r.keyRange (s.voices i).trig.number = true ∧
    containsWithEnd r.velocityRange (s.voices i).trig.value = true

/-- The releases a value `v` of controller `k` sets free, for a listener with the notes `p` (pedals, waiting, caught): the sustain pedal
when it comes up, those that wait; the sostenuto pedal when it comes up with the sustain pedal up, those it has caught. -/
def freed (r : Region) (k : Nat) (v : ℚ) (p : Bool × Bool × List (Int × ℚ) × List (Int × ℚ)) : List (Int × ℚ) :=
  if r.checkSustain = true ∧ k = r.sustainCC ∧ v < r.sustainThreshold then p.2.2.1
  else if r.checkSostenuto = true ∧ k = r.sostenutoCC ∧ v < r.sostenutoThreshold ∧ p.1 = false then p.2.2.2
  else []

open Classical in
/-- The releases a value `v` of controller `k` must play for layer `l`. -/
noncomputable def due (c : Cfg) (vm : VM) (k : Nat) (v : ℚ) (l : Nat) (p : Bool × Bool × List (Int × ℚ) × List (Int × ℚ)) : List (Nat × Int × ℚ) :=
  if (c.regions l).rtDead = true ∨ attackAlive vm (c.regions l) then (freed (c.regions l) k v p).map (fun q => (l, q)) else []

/-! ### Lemmas -/

theorem length_le_busy {s : VM} {L : List Nat} (hn : L.Nodup) (h : ∀ i ∈ L, i < s.size ∧ (s.voices i).state ≠ .idle) :
    L.length ≤ busy s := by
  refine (List.subperm_of_subset hn ?_).length_le
  intro i hi
  simpa using h i hi

theorem limitVoices_id {e : Env} {s : VM} {L : List Nat} {n : Nat} {d : Int} (h : L.length < n) : limitVoices e s L n d = some s := by
  have hl : ¬ (L.filter (fun i => !offedOrFree s i)).length ≥ n := by
    have := List.length_filter_le (fun i => !offedOrFree s i) L
    omega
  unfold limitVoices pick
  rw [if_neg hl]
  rfl

theorem VInv.busy_of_listed {e : Env} {s : VM} (h : VInv e s) {i l : Nat} (hi : Listed e s i l) : i < s.size ∧ (s.voices i).state ≠ .idle := by
  constructor
  · by_contra hc
    have := h.out i (by omega)
    rw [hi.1] at this; cases this
  · intro hs
    have := (h.idle i).mp hs
    rw [hi.1] at this; cases this

theorem checkPolyphony_id {e : Env} {s : VM} (h : VInv e s) {l k : Nat} (hf : Fits e s [l] (k + 1)) (hc : CanPlay e l) (d : Int) (t : Trig) :
    checkPolyphony e s l d t = some s := by
  have hact : s.active.length ≤ busy s := length_le_busy h.actN (fun i hi => by
    obtain ⟨l', hl'⟩ := (h.act i).mp hi; exact h.busy_of_listed hl')
  have hgrp : ∀ g, (s.groups g).voices.length ≤ busy s := fun g => length_le_busy (h.grpN g) (fun i hi => by
    obtain ⟨l', hl', _⟩ := (h.grp g i).mp hi; exact h.busy_of_listed hl')
  have hset : ∀ a, (s.setVoices a).length ≤ busy s := fun a => length_le_busy (h.setN a) (fun i hi => by
    obtain ⟨l', hl', _⟩ := (h.set a i).mp hi; exact h.busy_of_listed hl')
  have h1 : checkNotePolyphony e s (e.regions l) d t = some s := by
    unfold checkNotePolyphony; rw [hc.note]
  have h2 : checkRegionPolyphony e s l d = some s := by
    refine limitVoices_id ?_
    have := List.length_filter_le (fun i => decide ((s.voices i).layer = some l)) s.active
    have := hf.region l (by simp)
    omega
  have h3 : checkGroupPolyphony e s l d = some s := by
    refine limitVoices_id ?_
    have := hgrp (e.regions l).group
    have := hf.group l (by simp)
    omega
  have h4 : checkSetPolyphony e s l d = some s := by
    unfold checkSetPolyphony
    have hs := hf.sets l (by simp)
    generalize (e.regions l).ancestors = A at hs
    induction A with
    | nil => rfl
    | cons a A ih =>
      rw [List.foldlM_cons, limitVoices_id (by have := hset a; have := hs a (by simp); omega)]
      exact ih (fun b hb => hs b (by simp [hb]))
  have h5 : checkEnginePolyphony e s d = some s := limitVoices_id (by have := hf.engine; omega)
  unfold checkPolyphony
  rw [h1, Option.bind_eq_bind, Option.bind_some, h2, Option.bind_some, h3, Option.bind_some, h4, Option.bind_some, h5]

theorem findLoop_idle (s : VM) : ∀ (L : List Nat) (b : Option Nat), (∃ i ∈ L, (s.voices i).state = .idle) →
    ∃ i ∈ L, findLoop s L b = some i ∧ (s.voices i).state = .idle := by
  intro L
  induction L with
  | nil => rintro b ⟨i, hi, _⟩; cases hi
  | cons a L ih =>
    rintro b ⟨i, hi, hs⟩
    by_cases ha : (s.voices a).state = .idle
    · exact ⟨a, by simp, by rw [findLoop.eq_def]; simp [isFree, ha], ha⟩
    · have hi' : ∃ i ∈ L, (s.voices i).state = .idle := by
        rcases List.mem_cons.mp hi with rfl | hi
        · exact absurd hs ha
        · exact ⟨i, hi, hs⟩
      have hfree : isFree s a = false := by simp [isFree, ha]
      have : ∃ b', findLoop s (a :: L) b = findLoop s L b' := by
        by_cases ho : offedOrFree s a = true
        · cases b with
          | none => exact ⟨some a, by rw [findLoop.eq_def]; simp [hfree, ho]⟩
          | some b => exact ⟨if (s.voices a).age > (s.voices b).age then some a else some b, by rw [findLoop.eq_def]; simp [hfree, ho]⟩
        · exact ⟨b, by rw [findLoop.eq_def]; simp [hfree, ho]⟩
      obtain ⟨b', hb⟩ := this
      obtain ⟨j, h1, h2, h3⟩ := ih b' hi'
      exact ⟨j, by simp [h1], by rw [hb]; exact h2, h3⟩

theorem findFree_idle {s : VM} (h : busy s < s.size) : ∃ i, i < s.size ∧ findFreeVoice s = some i ∧ (s.voices i).state = .idle := by
  have : ∃ i ∈ List.range s.size, (s.voices i).state = .idle := by
    by_contra hc
    push Not at hc
    have : busy s = s.size := by
      unfold busy
      rw [List.filter_eq_self.mpr (fun i hi => by simpa using hc i hi), List.length_range]
    omega
  obtain ⟨i, h1, h2, h3⟩ := findLoop_idle s _ none this
  exact ⟨i, by simpa using h1, h2, h3⟩

theorem voiceStart_plays {e : Env} {s s' : VM} {m : Midi.State} {i l : Nat} {d : Int} {t : Trig} {ok : Bool} (hc : CanPlay e l)
    (h : voiceStart e s m i l d t = some (s', ok)) : ok = true := by
  unfold voiceStart at h
  simp only [hc.enabled, Bool.false_eq_true, if_false] at h
  have hs : (!(e.regions l).oscillator && !e.promise l) = false := by
    rcases hc.sound with h | h <;> simp [h]
  rw [hs] at h
  simp only [Bool.false_eq_true, if_false, Option.bind_eq_bind, Option.bind_eq_some_iff, Option.pure_def, Option.some.injEq, Prod.mk.injEq] at h
  obtain ⟨_, _, _, h⟩ := h
  exact h.symm

/-- A voice manager and the ring head in good order. -/
def Good (e : Env) (s : VM) (head : Option Nat) : Prop :=
  VInv e s ∧ LimitsOk e s ∧ ∀ a, head = some a → (s.voices a).layer ≠ none

theorem busy_start {s s' : VM} {i : Nat} (hz : s'.size = s.size) (hi : i < s.size) (h0 : (s.voices i).state = .idle)
    (h1 : (s'.voices i).state ≠ .idle) (ho : ∀ j, j ≠ i → s'.voices j = s.voices j) : busy s' = busy s + 1 := by
  unfold busy
  rw [hz]
  have hperm : ((List.range s.size).filter (fun j => decide ((s'.voices j).state ≠ .idle))).Perm
      (i :: (List.range s.size).filter (fun j => decide ((s.voices j).state ≠ .idle))) := by
    refine (List.perm_ext_iff_of_nodup (List.nodup_range.filter _) (List.nodup_cons.mpr ⟨by simp [h0], List.nodup_range.filter _⟩)).mpr ?_
    intro j
    by_cases hj : j = i
    · subst hj; simp [hi, h1]
    · simp [hj, ho j hj]
  rw [hperm.length_eq, List.length_cons]

/-- With room, a start takes one idle voice and touches no other. -/
theorem start_room {e : Env} {s : VM} {head : Option Nat} (hg : Good e s head) {L : List Nat} {l k : Nat} (hl : l ∈ L)
    (hf : Fits e s L (k + 1)) (hc : CanPlay e l) (m : Midi.State) (d : Int) (n : Int) (v : ℚ) :
    ∃ s' head', startVoice e s m l d { type := .noteOff, number := n, value := v } head = some (s', head') ∧ Good e s' head' ∧
      Fits e s' L k ∧ s'.size = s.size ∧ OneEach e m d s s' [(l, n, v)] := by
  obtain ⟨hi, hlim, hh⟩ := hg
  obtain ⟨s', head', h1, h2, h3⟩ := startVoice_ok hi hlim m l d { type := .noteOff, number := n, value := v } head hh
  have hfl : Fits e s [l] (k + 1) := ⟨hf.size, hf.engine, fun a ha => by simp only [List.mem_singleton] at ha; subst ha; exact hf.region _ hl,
    fun a ha => by simp only [List.mem_singleton] at ha; subst ha; exact hf.group _ hl,
    fun a ha => by simp only [List.mem_singleton] at ha; subst ha; exact hf.sets _ hl⟩
  obtain ⟨i, i1, i2, i3⟩ := findFree_idle (s := s) (by have := hf.size; omega)
  have hstart := h1
  unfold startVoice at hstart
  rw [checkPolyphony_id hi hfl hc, Option.bind_eq_bind, Option.bind_some] at hstart
  simp only [i2, Option.bind_eq_bind, Option.bind_eq_some_iff, Prod.exists] at hstart
  obtain ⟨s2, r1, s3, ok, r2, r3⟩ := hstart
  have hok := voiceStart_plays hc r2
  subst hok
  obtain ⟨rec, w1, w2⟩ := voiceStart_writes r2
  have w3 : rec = startRec e m l (if d < 0 then 0 else d) { type := .noteOff, number := n, value := v } (cleared (s.voices i)) := by
    rcases w2 with ⟨_, h⟩ | ⟨h, _⟩
    · cases h
    · rw [(reset_writes r1).at] at h; exact h
  have w := (reset_writes r1).trans w1
  have hvs : s'.voices = s3.voices := by
    simp only [if_true, Option.pure_def, Option.some.injEq] at r3
    rw [show s' = (addToRing s3 head i).1 by rw [r3]]
    rfl
  have hat : s'.voices i = startRec e m l (if d < 0 then 0 else d) { type := .noteOff, number := n, value := v } (cleared (s.voices i)) := by
    rw [hvs, w.at, w3]
  have hother : ∀ j, j ≠ i → s'.voices j = s.voices j := fun j hj => by rw [hvs, w.other hj]
  obtain ⟨k1, k2, k3, k4, k5, k6, k7, k8⟩ := startRec_keeps e m l (if d < 0 then 0 else d) { type := .noteOff, number := n, value := v } (s.voices i)
  have kt := (startRec_trig e m l (if d < 0 then 0 else d) { type := .noteOff, number := n, value := v } (cleared (s.voices i))).1
  have hb : busy s' = busy s + 1 := busy_start h2.size i1 i3 (by rw [hat, k8]; simp) hother
  refine ⟨s', head', h1, ⟨h2.inv, ?_, h3⟩, ?_, h2.size, [i], by simp, ?_, fun j hj => hother j (by simpa using hj)⟩
  · intro hs
    obtain ⟨q1, q2, q3, q4⟩ := hlim hs
    exact ⟨by rw [h2.required]; exact q1, fun g => by rw [h2.limits]; exact q2 g, fun a => by rw [h2.setLimits]; exact q3 a, q4⟩
  · exact ⟨by rw [hb, h2.size]; have := hf.size; omega, by rw [hb, h2.required]; have := hf.engine; omega,
      fun a ha => by rw [hb]; have := hf.region a ha; omega,
      fun a ha => by rw [hb, h2.limits]; have := hf.group a ha; omega,
      fun a ha b hb' => by rw [hb, h2.setLimits]; have := hf.sets a ha b hb'; omega⟩
  · refine List.Forall₂.cons ⟨i1, i3, ?_⟩ .nil
    rw [hat]
    refine ⟨k8, k7, k6, ?_, ?_, ⟨k3, k4⟩, ?_⟩
    · rw [kt]; simp [armed]
    · rw [kt]; simp [armed]
    · rw [k2]
      congr 1
      split <;> omega

theorem OneEach.nil (e : Env) (m : Midi.State) (d : Int) (s : VM) : OneEach e m d s s [] := ⟨[], by simp, .nil, fun _ _ => rfl⟩

theorem OneEach.trans {e : Env} {m : Midi.State} {d : Int} {a b s : VM} {X Y : List (Nat × Int × ℚ)} (hz : b.size = a.size)
    (h : OneEach e m d a b X) (h' : OneEach e m d b s Y) : OneEach e m d a s (X ++ Y) := by
  obtain ⟨is, n1, f1, o1⟩ := h
  obtain ⟨js, n2, f2, o2⟩ := h'
  have hplay : ∀ i ∈ is, (b.voices i).state = .playing := by
    intro i hi
    obtain ⟨k, hk, rfl⟩ := List.getElem_of_mem hi
    exact ((List.forall₂_iff_get.mp f1).2 k hk (by rw [← f1.length_eq]; exact hk)).2.2.playing
  have hidle : ∀ i ∈ js, (b.voices i).state = .idle := by
    intro i hi
    obtain ⟨k, hk, rfl⟩ := List.getElem_of_mem hi
    exact ((List.forall₂_iff_get.mp f2).2 k hk (by rw [← f2.length_eq]; exact hk)).2.1
  have hdis : ∀ i ∈ is, i ∉ js := fun i hi hj => by
    have h1 := hplay i hi
    rw [hidle i hj] at h1; cases h1
  refine ⟨is ++ js, List.nodup_append.mpr ⟨n1, n2, fun i hi j hj e => hdis i hi (e ▸ hj)⟩, ?_, ?_⟩
  · refine List.rel_append ?_ ?_
    · refine List.forall₂_iff_get.mpr ⟨f1.length_eq, fun k hk hk' => ?_⟩
      have := (List.forall₂_iff_get.mp f1).2 k hk hk'
      refine ⟨this.1, this.2.1, ?_⟩
      rw [o2 _ (hdis _ (List.get_mem is ⟨k, hk⟩))]
      exact this.2.2
    · refine List.forall₂_iff_get.mpr ⟨f2.length_eq, fun k hk hk' => ?_⟩
      have := (List.forall₂_iff_get.mp f2).2 k hk hk'
      refine ⟨by rw [← hz]; exact this.1, ?_, this.2.2⟩
      rw [← o1 _ (fun hi => hdis _ hi (List.get_mem js ⟨k, hk⟩))]
      exact this.2.1
  · intro j hj
    simp only [List.mem_append, not_or] at hj
    rw [o2 j hj.2, o1 j hj.1]

theorem OneEach.attack {e : Env} {m : Midi.State} {d : Int} {s s' : VM} {X : List (Nat × Int × ℚ)} (h : OneEach e m d s s' X) (r : Region) :
    attackAlive s' r ↔ attackAlive s r := by
  obtain ⟨is, _, f1, o1⟩ := h
  have hin : ∀ i ∈ is, (s.voices i).state = .idle ∧ (s'.voices i).trig.type = .noteOff := by
    intro i hi
    obtain ⟨k, hk, rfl⟩ := List.getElem_of_mem hi
    have := (List.forall₂_iff_get.mp f1).2 k hk (by rw [← f1.length_eq]; exact hk)
    exact ⟨this.2.1, this.2.2.type⟩
  constructor
  · rintro ⟨i, h1, h2, h3⟩
    have : i ∉ is := fun hi => by rw [(hin i hi).2] at h2; cases h2
    rw [o1 i this] at h1 h2 h3
    exact ⟨i, h1, h2, h3⟩
  · rintro ⟨i, h1, h2, h3⟩
    have : i ∉ is := fun hi => h1 (hin i hi).1
    exact ⟨i, by rw [o1 i this]; exact ⟨h1, h2, h3⟩⟩

theorem playingAttack_iff {e : Env} {s : VM} (h : VInv e s) (r : Region) : playingAttackVoice s r = true ↔ attackAlive s r := by
  unfold playingAttackVoice attackAlive
  simp only [List.any_eq_true, List.mem_range, Bool.and_eq_true, Bool.not_eq_true', isFree, decide_eq_false_iff_not, decide_eq_true_eq, and_assoc]
  constructor
  · rintro ⟨i, _, h⟩; exact ⟨i, h⟩
  · rintro ⟨i, h1, h2⟩
    refine ⟨i, ?_, h1, h2⟩
    by_contra hc
    exact h1 ((h.idle i).mpr (h.out i (by omega)))

variable {c : Cfg}

theorem startReleases_room {L : List Nat} {l : Nat} (hl : l ∈ L) (hc : CanPlay c.toEnv l) (d : Int) (m : Midi.State) :
    ∀ (P : List (Int × ℚ)) (s : E) (head : Option Nat) (k : Nat), s.midi = m → Good c.toEnv s.vm head → Fits c.toEnv s.vm L (P.length + k) →
    ∃ vm head', startReleases c l d (s, head) P = some ({ s with vm := vm }, head') ∧ Good c.toEnv vm head' ∧ Fits c.toEnv vm L k ∧
      vm.size = s.vm.size ∧ OneEach c.toEnv m d s.vm vm (P.map (fun p => (l, p))) := by
  intro P
  induction P with
  | nil => intro s head k _ hg hf; exact ⟨s.vm, head, rfl, hg, by simpa using hf, rfl, OneEach.nil _ _ _ _⟩
  | cons p P ih =>
    intro s head k hm hg hf
    have hf' : Fits c.toEnv s.vm L ((P.length + k) + 1) := by
      have : (p :: P).length + k = (P.length + k) + 1 := by simp; omega
      rw [← this]; exact hf
    obtain ⟨vm1, head1, a1, a2, a3, a4, a5⟩ := start_room hg hl hf' hc s.midi d p.1 p.2
    obtain ⟨vm2, head2, b1, b2, b3, b4, b5⟩ := ih { s with vm := vm1 } head1 k hm a2 a3
    refine ⟨vm2, head2, ?_, b2, b3, b4.trans a4, ?_⟩
    · unfold startReleases at b1 ⊢
      rw [List.foldlM_cons]
      have : start c s l d { type := .noteOff, number := p.1, value := p.2 } head = some ({ s with vm := vm1 }, head1) := by
        unfold start; rw [a1]; rfl
      simp only [this, Option.bind_eq_bind, Option.bind_some]
      exact b1
    · rw [hm] at a5
      exact OneEach.trans a4 a5 b5

/-- One layer of the dispatch of a controller that nothing triggers on. -/
theorem ccLayer_room {L : List Nat} {l : Nat} (hl : l ∈ L) (hc : CanPlay c.toEnv l) (hcc : (c.regions l).triggerOnCC = false)
    (hne : (c.regions l).sustainCC ≠ (c.regions l).sostenutoCC) {k : Nat} (d : Int) (v u : ℚ) (arg : Int) (s : E) (head : Option Nat)
    (N : Nat) (hg : Good c.toEnv s.vm head) (hf : Fits c.toEnv s.vm L ((due c s.vm k v l (ped (s.layers l))).length + N)) :
    ∃ s' head', ccLayer c d k v u arg (s, head) l = some (s', head') ∧ Good c.toEnv s'.vm head' ∧ Fits c.toEnv s'.vm L N ∧
      s'.vm.size = s.vm.size ∧ s'.midi = s.midi ∧ OneEach c.toEnv s.midi d s.vm s'.vm (due c s.vm k v l (ped (s.layers l))) := by
  have hfire : ∀ (m : Midi.State) (ls : Layer.State), (Layer.registerCC (c.regions l) m ls k v u arg).2 = false := by
    intro m ls; unfold Layer.registerCC; simp [hcc]
  have fin : ∀ (s1 : E) (head1 : Option Nat), ccPedals c d k v (s, head) l = some (s1, head1) →
      ccLayer c d k v u arg (s, head) l = some (setLayer s1 l (Layer.registerCC (c.regions l) s1.midi (s1.layers l) k v u arg).1, head1) := by
    intro s1 head1 h
    unfold ccLayer
    rw [h]
    simp only [Option.bind_eq_bind, Option.bind_some, hfire, Bool.false_and, Bool.false_eq_true, if_false, Option.pure_def]
  -- starting a list of releases and forgetting it
  have go : ∀ (P : List (Int × ℚ)) (g : Layer.State → Layer.State), freed (c.regions l) k v (ped (s.layers l)) = P →
      ccPedals c d k v (s, head) l = (if (c.regions l).rtDead = false ∧ playingAttackVoice s.vm (c.regions l) = false
        then some (setLayer s l (g (s.layers l)), head)
        else (startReleases c l d (s, head) P).bind (fun sh => some (setLayer sh.1 l (g (sh.1.layers l)), sh.2))) →
      ∃ s' head', ccLayer c d k v u arg (s, head) l = some (s', head') ∧ Good c.toEnv s'.vm head' ∧ Fits c.toEnv s'.vm L N ∧
        s'.vm.size = s.vm.size ∧ s'.midi = s.midi ∧ OneEach c.toEnv s.midi d s.vm s'.vm (due c s.vm k v l (ped (s.layers l))) := by
    intro P g hP hped
    by_cases hal : (c.regions l).rtDead = true ∨ attackAlive s.vm (c.regions l)
    · have hdue : due c s.vm k v l (ped (s.layers l)) = P.map (fun p => (l, p)) := by
        unfold due; rw [if_pos hal, hP]
      rw [hdue, List.length_map] at hf
      rw [hdue]
      obtain ⟨vm, head1, a1, a2, a3, a4, a5⟩ := startReleases_room hl hc d s.midi P s head N rfl hg hf
      have : ¬ ((c.regions l).rtDead = false ∧ playingAttackVoice s.vm (c.regions l) = false) := by
        rintro ⟨x, y⟩
        rcases hal with h | h
        · rw [x] at h; cases h
        · rw [(playingAttack_iff hg.1 _).mpr h] at y; cases y
      rw [if_neg this, a1] at hped
      exact ⟨_, _, fin _ _ hped, a2, a3, a4, rfl, a5⟩
    · have hdue : due c s.vm k v l (ped (s.layers l)) = [] := by
        unfold due; rw [if_neg hal]
      rw [hdue] at hf ⊢
      push Not at hal
      have : (c.regions l).rtDead = false ∧ playingAttackVoice s.vm (c.regions l) = false := by
        refine ⟨by simpa using hal.1, ?_⟩
        rw [← Bool.not_eq_true, playingAttack_iff hg.1]; exact hal.2
      rw [if_pos this] at hped
      exact ⟨_, _, fin _ _ hped, hg, by simpa using hf, rfl, rfl, OneEach.nil _ _ _ _⟩
  -- nothing to start
  have stay : ∀ s1 : E, freed (c.regions l) k v (ped (s.layers l)) = [] → ccPedals c d k v (s, head) l = some (s1, head) → s1.vm = s.vm →
      s1.midi = s.midi →
      ∃ s' head', ccLayer c d k v u arg (s, head) l = some (s', head') ∧ Good c.toEnv s'.vm head' ∧ Fits c.toEnv s'.vm L N ∧
        s'.vm.size = s.vm.size ∧ s'.midi = s.midi ∧ OneEach c.toEnv s.midi d s.vm s'.vm (due c s.vm k v l (ped (s.layers l))) := by
    intro s1 hP hped hv hm
    have hdue : due c s.vm k v l (ped (s.layers l)) = [] := by
      unfold due; rw [hP]; simp
    rw [hdue] at hf ⊢
    have hf' : Fits c.toEnv s.vm L N := by simpa using hf
    refine ⟨_, _, fin _ _ hped, ?_, ?_, ?_, hm, ?_⟩
    · show Good c.toEnv s1.vm head
      rw [hv]; exact hg
    · show Fits c.toEnv s1.vm L N
      rw [hv]; exact hf'
    · show s1.vm.size = _
      rw [hv]
    · show OneEach c.toEnv s.midi d s.vm s1.vm []
      rw [hv]; exact OneEach.nil _ _ _ _
  by_cases h1 : (c.regions l).checkSustain = true ∧ k = (c.regions l).sustainCC ∧ v < (c.regions l).sustainThreshold
  · have h2 : k ≠ (c.regions l).sostenutoCC := fun e => hne (h1.2.1.symm.trans e)
    refine go (s.layers l).delayedSustain (fun ls => { ls with delayedSustain := [] }) (by unfold freed; rw [if_pos h1]; rfl) ?_
    have hso : ∀ sh : E × Option Nat, sostenutoLift c d k v sh l = some sh := by
      intro sh; unfold sostenutoLift; simp [h2]
    have : sustainLift c d k v (s, head) l = startDelayedSustain c l d (s, head) := by
      unfold sustainLift; simp [h1.1, h1.2.1, h1.2.2]
    unfold ccPedals
    rw [this, Option.bind_eq_bind]
    have hid : ∀ o : Option (E × Option Nat), o.bind (fun a => some a) = o := by
      intro o; cases o <;> rfl
    simp only [hso, hid]
    unfold startDelayedSustain
    dsimp only
    split
    · rfl
    · rfl
  · have hsu : sustainLift c d k v (s, head) l = some (s, head) := by
      unfold sustainLift
      simp only [Bool.and_eq_true, decide_eq_true_eq, and_assoc]
      rw [if_neg h1]
    have hped : ccPedals c d k v (s, head) l = sostenutoLift c d k v (s, head) l := by
      unfold ccPedals
      rw [hsu]; rfl
    by_cases h2 : (c.regions l).checkSostenuto = true ∧ k = (c.regions l).sostenutoCC ∧ v < (c.regions l).sostenutoThreshold
    · have hgo : sostenutoLift c d k v (s, head) l =
          if (s.layers l).sustainPressed then some (setLayer s l (handOver (c.regions l) (s.layers l)), head) else startDelayedSostenuto c l d (s, head) := by
        unfold sostenutoLift; simp [h2.1, h2.2.1, h2.2.2]
      cases hdown : (s.layers l).sustainPressed
      · refine go (s.layers l).delayedSostenuto (fun ls => { ls with delayedSostenuto := [] }) ?_ ?_
        · unfold freed
          rw [if_neg h1, if_pos ⟨h2.1, h2.2.1, h2.2.2, hdown⟩]; rfl
        · rw [hped, hgo, if_neg (by simp [hdown])]
          unfold startDelayedSostenuto
          dsimp only
          split
          · rfl
          · rfl
      · refine stay (setLayer s l (handOver (c.regions l) (s.layers l))) ?_ ?_ rfl rfl
        · unfold freed
          rw [if_neg h1, if_neg]
          rintro ⟨_, _, _, e⟩
          have e' : (s.layers l).sustainPressed = false := e
          rw [hdown] at e'; cases e'
        · rw [hped, hgo, hdown]; rfl
    · refine stay s ?_ ?_ rfl rfl
      · unfold freed
        rw [if_neg h1, if_neg (fun e => h2 ⟨e.1, e.2.1, e.2.2.1⟩)]
      · rw [hped]
        unfold sostenutoLift
        simp only [Bool.and_eq_true, decide_eq_true_eq, and_assoc]
        rw [if_neg h2]

theorem due_congr {vm vm' : VM} {l k : Nat} {v : ℚ} (P : Bool × Bool × List (Int × ℚ) × List (Int × ℚ)) (h : attackAlive vm' (c.regions l) ↔ attackAlive vm (c.regions l)) :
    due c vm' k v l P = due c vm k v l P := by
  unfold due
  rw [show attackAlive vm' (c.regions l) = attackAlive vm (c.regions l) from propext h]

theorem ccLayers_room (hn : NoOffBy c) {L0 : List Nat} {k : Nat} (d : Int) (v u : ℚ) (arg : Int) (W : Nat → Bool × Bool × List (Int × ℚ) × List (Int × ℚ)) :
    ∀ (L : List Nat), L.Nodup → (∀ l ∈ L, l ∈ L0 ∧ CanPlay c.toEnv l ∧ (c.regions l).triggerOnCC = false ∧
      (c.regions l).sustainCC ≠ (c.regions l).sostenutoCC) →
    ∀ (s : E) (head : Option Nat), (∀ l ∈ L, ped (s.layers l) = W l) → Good c.toEnv s.vm head →
      Fits c.toEnv s.vm L0 (L.flatMap (fun l => due c s.vm k v l (W l))).length →
    ∃ s' head', L.foldlM (ccLayer c d k v u arg) (s, head) = some (s', head') ∧ s'.vm.size = s.vm.size ∧
      OneEach c.toEnv s.midi d s.vm s'.vm (L.flatMap (fun l => due c s.vm k v l (W l))) := by
  intro L
  induction L with
  | nil => intro _ _ s head _ _ _; exact ⟨s, head, rfl, rfl, OneEach.nil _ _ _ _⟩
  | cons l L ih =>
    intro hnd hL s head hW hg hf
    obtain ⟨hnl, hnd'⟩ := List.nodup_cons.mp hnd
    obtain ⟨q1, q2, q3, q4⟩ := hL l (by simp)
    rw [List.flatMap_cons, List.length_append, ← hW l (by simp)] at hf
    obtain ⟨s1, head1, a1, a2, a3, a4, a5, a6⟩ := ccLayer_room q1 q2 q3 q4 d v u arg s head _ hg hf
    have hsame : L.flatMap (fun l => due c s1.vm k v l (W l)) = L.flatMap (fun l => due c s.vm k v l (W l)) := by
      congr 1; funext l'; exact due_congr _ (a6.attack _)
    have hlay : ∀ l' ∈ L, ped (s1.layers l') = W l' := by
      intro l' hl'
      have hne : l' ≠ l := fun e => hnl (e ▸ hl')
      obtain ⟨sh1, e1, _, e3⟩ := ccLayer_layers hn a1
      rw [show s1.layers = _ from e3, setLayer_view _ _ _ _ (fun e => hne e.symm), (ccPedals_layers e1).2 l' hne]
      exact hW l' (by simp [hl'])
    obtain ⟨s2, head2, b1, b2, b3⟩ := ih hnd' (fun l' hl' => hL l' (by simp [hl'])) s1 head1 hlay a2 (by rw [hsame]; exact a3)
    refine ⟨s2, head2, ?_, b2.trans a4, ?_⟩
    · rw [List.foldlM_cons, a1]; exact b1
    · rw [List.flatMap_cons, ← hW l (by simp)]
      rw [hsame, a5] at b3
      exact OneEach.trans a4 a6 b3

theorem ccRec_use (e : Env) (d : Int) (k : Nat) (x : ℚ) (v : Voice) :
    ((ccRec e d k x v).state = .idle ↔ v.state = .idle) ∧ (ccRec e d k x v).trig = v.trig := by
  have hrel : ∀ w : Voice, ((releaseRec w d).state = .idle ↔ w.state = .idle) ∧ (releaseRec w d).trig = w.trig := by
    intro w
    unfold releaseRec
    split
    · exact ⟨Iff.rfl, rfl⟩
    · rename_i h
      push Not at h
      refine ⟨?_, rfl⟩
      simp only [h]
      split <;> simp
  have hsus : ∀ (r : Region) (w : Voice), (voiceSustain r w k x).state = w.state ∧ (voiceSustain r w k x).trig = w.trig := by
    intro r w; unfold voiceSustain; split
    · split <;> exact ⟨rfl, rfl⟩
    · exact ⟨rfl, rfl⟩
  have hsos : ∀ (r : Region) (w : Voice), (voiceSostenuto r w k x).state = w.state ∧ (voiceSostenuto r w k x).trig = w.trig := by
    intro r w; unfold voiceSostenuto; split
    · split
      · exact ⟨rfl, rfl⟩
      · split <;> exact ⟨rfl, rfl⟩
    · exact ⟨rfl, rfl⟩
  have hped : ∀ r : Region, ((pedalRec r d k x v).state = .idle ↔ v.state = .idle) ∧ (pedalRec r d k x v).trig = v.trig := by
    intro r
    unfold pedalRec
    split
    · obtain ⟨h1, h2⟩ := hrel (voiceSustain r (voiceSostenuto r v k x) k x)
      rw [h1, h2, (hsus r _).1, (hsus r _).2, (hsos r _).1, (hsos r _).2]
      exact ⟨Iff.rfl, rfl⟩
    · rw [(hsus r _).1, (hsus r _).2, (hsos r _).1, (hsos r _).2]
      exact ⟨Iff.rfl, rfl⟩
  unfold ccRec
  split
  · exact ⟨Iff.rfl, rfl⟩
  · split
    · exact ⟨Iff.rfl, rfl⟩
    · split
      · exact ⟨Iff.rfl, rfl⟩
      · split
        · exact hped _
        · exact hped _

/-- The voices after the pedal has been told to them, before the releases start. -/
def toldCC (c : Cfg) (d : Int) (k : Nat) (v : ℚ) (s : E) : E := eachVoice (fun vm i => voiceCC c.toEnv vm i d k v) s

theorem toldCC_use (d : Int) (k : Nat) (v : ℚ) (s : E) : SoftVM s.vm (toldCC c d k v s).vm ∧
    (∀ i, ((toldCC c d k v s).vm.voices i).state = .idle ↔ (s.vm.voices i).state = .idle) ∧
    (∀ i, ((toldCC c d k v s).vm.voices i).trig = (s.vm.voices i).trig) := by
  obtain ⟨_, h2⟩ := eachVoice_voices (voiceCC_own c.toEnv d k v) s
  refine ⟨eachVoice_soft _ (fun s i => voiceCC_soft s i d k v) s, fun i => ?_, fun i => ?_⟩
  · unfold toldCC
    rw [h2 i]
    split
    · exact (ccRec_use _ _ _ _ _).1
    · exact Iff.rfl
  · unfold toldCC
    rw [h2 i]
    split
    · exact (ccRec_use _ _ _ _ _).2
    · rfl

theorem told_busy (d : Int) (k : Nat) (v : ℚ) (s : E) : busy (toldCC c d k v s).vm = busy s.vm := by
  obtain ⟨h1, h2, _⟩ := toldCC_use (c := c) d k v s
  unfold busy
  rw [h1.links.size]
  simp only [ne_eq, h2]

theorem told_attack (d : Int) (k : Nat) (v : ℚ) (s : E) (r : Region) : attackAlive (toldCC c d k v s).vm r ↔ attackAlive s.vm r := by
  obtain ⟨_, h2, h3⟩ := toldCC_use (c := c) d k v s
  unfold attackAlive
  simp only [ne_eq, h2, h3]

/-! ### The releases that are played -/

/-- C16: when the sustain pedal comes up (or any value is sent to a controller), every release that waits for it is played exactly
once, at the frame of the message: one idle voice is started for each of them, with the key and the velocity of the note, and no
other voice is touched. The same for the keys caught by the sostenuto pedal, when that one comes up with the sustain pedal up. What waits
is what was heard since the pedal went down (`listen`). Unless `rt_dead` is set, the region needs a voice of a note-on to be alive.
The limits must leave room. Partial: no `off_by`, no region triggered by the pedal itself, and room for the voices. -/
theorem releases_played_partial (hn : NoOffBy c) (m : Midi.State) (sw : Option Int) (n : Nat) (gl sl : Nat → Nat) (ops : List Op) (s : E)
    (hsane : Sane c n gl sl ops) (h : run c (load c m sw n gl sl) ops = some s) (d : Int) (k : Nat) (v : ℚ)
    (hk : k ≠ 120 ∧ k ≠ 121 ∧ k ≠ 123) (hL : ∀ l ∈ ccLayers c k, IsRelease (c.regions l) ∧ CanPlay c.toEnv l) (X : List (Nat × Int × ℚ))
    (hX : X = (ccLayers c k).flatMap (fun l => due c s.vm k v l (ops.foldl (listen c l) (listenInit c m sw n gl sl l)).notes))
    (hfit : Fits c.toEnv s.vm (ccLayers c k) X.length) :
    ∃ s', run c (load c m sw n gl sl) (ops ++ [.cc d k v]) = some s' ∧ OneEach c.toEnv s.midi d (toldCC c d k v s).vm s'.vm X := by
  subst hX
  obtain ⟨s0, h1, h2, h3, _⟩ := reachable_ok m sw n gl sl ops hsane
  rw [h] at h1; cases h1
  obtain ⟨t1, t2, t3⟩ := toldCC_use (c := c) d k v s
  have hmem : ∀ l ∈ ccLayers c k, l < c.numLayers := fun l hl => by
    unfold ccLayers at hl
    exact List.mem_range.mp (List.mem_filter.mp hl).1
  have hdue : (ccLayers c k).flatMap (fun l => due c (draw (toldCC c d k v s)).vm k v l (ops.foldl (listen c l) (listenInit c m sw n gl sl l)).notes) =
      (ccLayers c k).flatMap (fun l => due c s.vm k v l (ops.foldl (listen c l) (listenInit c m sw n gl sl l)).notes) := by
    congr 1; funext l; exact due_congr _ (told_attack d k v s _)
  obtain ⟨s1, head1, a1, a2, a3⟩ := ccLayers_room hn (L0 := ccLayers c k) (k := k) d v (c.rand (toldCC c d k v s).draws) (-1)
    (fun l => (ops.foldl (listen c l) (listenInit c m sw n gl sl l)).notes) (ccLayers c k) (ccLayers_nodup k)
    (fun l hl => ⟨hl, (hL l hl).2, (hL l hl).1.notCC, (hL l hl).1.pedals⟩) (draw (toldCC c d k v s)) none
    (fun l hl => (agree_after hn m sw n gl sl (hmem l hl) (hL l hl).1 ops s h).ped_eq)
    ⟨h2.soft t1, h3.soft t1, fun a ha => by cases ha⟩ (by
      rw [hdue]
      have hb := told_busy (c := c) d k v s
      refine ⟨?_, ?_, ?_, ?_, ?_⟩
      · show busy (toldCC c d k v s).vm + _ ≤ (toldCC c d k v s).vm.size
        rw [hb, t1.links.size]; exact hfit.size
      · show busy (toldCC c d k v s).vm + _ ≤ (toldCC c d k v s).vm.required
        rw [hb, t1.links.required]; exact hfit.engine
      · intro l hl
        show busy (toldCC c d k v s).vm + _ ≤ _
        rw [hb]; exact hfit.region l hl
      · intro l hl
        show busy (toldCC c d k v s).vm + _ ≤ ((toldCC c d k v s).vm.groups _).limit
        rw [hb, t1.links.groups]; exact hfit.group l hl
      · intro l hl a ha
        show busy (toldCC c d k v s).vm + _ ≤ (toldCC c d k v s).vm.setLimits a
        rw [hb, t1.links.setLimits]; exact hfit.sets l hl a ha)
  rw [hdue] at a3
  refine ⟨{ s1 with midi := Midi.ccEvent s1.midi d k v }, ?_, a3⟩
  rw [run_snoc, h, Option.bind_some]
  show performHdcc c s d k v true (-1) = _
  unfold performHdcc
  rw [if_neg (fun e => hk.2.1 e.2), if_neg (fun e => by rcases e.2 with e | e <;> grind)]
  simp only [Option.bind_eq_bind]
  show (ccDispatch c (toldCC c d k v s) d k v (-1)).bind _ = _
  have : ccDispatch c (toldCC c d k v s) d k v (-1) = some s1 := by
    unfold ccDispatch
    simp only [Option.bind_eq_bind]
    show (List.foldlM (ccLayer c d k v (c.rand (toldCC c d k v s).draws) (-1)) (draw (toldCC c d k v s), none) (ccLayers c k)).bind _ = _
    rw [a1]; rfl
  rw [this]; rfl

end Verif.Engine
