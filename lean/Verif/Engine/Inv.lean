import Verif.Engine.Model
import Verif.SwapAndPop.Props
import Mathlib.Data.List.Nodup
import Mathlib.Data.List.Perm.Basic
import Mathlib.Data.Finset.Card
import Mathlib.Data.Fintype.Card
import Mathlib.Data.Fintype.Pigeonhole
import Mathlib.Logic.Function.Iterate

/-! The invariant of the voice manager and what its primitives do to it. -/
namespace Verif.Engine

open Verif.Layer (Region)

variable (e : Env)

/-- The voice plays (or is about to be cleaned up for) a layer that is not disabled. -/
def Listed (s : VM) (i l : Nat) : Prop := (s.voices i).layer = some l ∧ (e.regions l).disabled = false

/-- Invariant of the voice manager. -/
structure VInv (s : VM) : Prop where
  idle : ∀ i, (s.voices i).state = .idle ↔ (s.voices i).layer = none
  out : ∀ i, s.size ≤ i → (s.voices i).layer = none
  dis : ∀ i l, (s.voices i).layer = some l → (e.regions l).disabled = true → (s.voices i).state = .cleanMeUp
  idleOff : ∀ i, (s.voices i).layer = none → (s.voices i).offed = false
  actN : s.active.Nodup
  act : ∀ i, i ∈ s.active ↔ ∃ l, Listed e s i l
  grpN : ∀ g, (s.groups g).voices.Nodup
  grp : ∀ g i, i ∈ (s.groups g).voices ↔ ∃ l, Listed e s i l ∧ (e.regions l).group = g
  setN : ∀ k, (s.setVoices k).Nodup
  set : ∀ k i, i ∈ s.setVoices k ↔ ∃ l, Listed e s i l ∧ k ∈ (e.regions l).ancestors
  np : ∀ i, s.next (s.prev i) = i
  pn : ∀ i, s.prev (s.next i) = i
  self : ∀ i, (s.voices i).layer = none → s.next i = i

theorem upd_same {α : Type*} (f : Nat → α) (i : Nat) (v : α) : Midi.upd f i v i = v := by simp [Midi.upd]

theorem upd_other {α : Type*} (f : Nat → α) {i j : Nat} (h : j ≠ i) (v : α) : Midi.upd f i v j = f j := by
  simp [Midi.upd, h]

theorem initVM_inv (n : Nat) (gl sl : Nat → Nat) : VInv e (initVM n gl sl) := by
  constructor <;> simp [initVM, Listed]

/-! ### Lists -/

theorem removeFirst_perm (l : List Nat) (i : Nat) : (removeFirst l i).Perm (l.erase i) := by
  unfold removeFirst
  rcases SwapAndPop.swapAndPopFirst_exact (fun x => x == i) l with ⟨h1, h2⟩ | ⟨a, x, b, l', h1, h2, h3, h4, h5⟩
  · rw [h1]
    have : i ∉ l := fun hm => by simpa using h2 i hm
    simp [List.erase_of_not_mem this]
  · rw [h4]
    have hx : x = i := by simpa using h3
    subst hx
    have ha : x ∉ a := fun hm => by simpa using h2 x hm
    simp only [Option.map_some, Option.getD_some, h1]
    rw [List.erase_append_right _ ha]
    simpa using h5

theorem removeFirst_nodup {l : List Nat} (h : l.Nodup) (i : Nat) : (removeFirst l i).Nodup :=
  (removeFirst_perm l i).nodup_iff.mpr (h.erase i)

theorem mem_removeFirst {l : List Nat} (h : l.Nodup) (i j : Nat) : j ∈ removeFirst l i ↔ j ≠ i ∧ j ∈ l := by
  rw [(removeFirst_perm l i).mem_iff, h.mem_erase_iff]

theorem addOnce_nodup {l : List Nat} (h : l.Nodup) (i : Nat) : (addOnce l i).Nodup := by
  unfold addOnce
  split
  · exact h
  · rename_i hn
    rw [List.nodup_append]
    refine ⟨h, by simp, ?_⟩
    intro a ha b hb hab
    simp at hb
    subst hb hab
    exact hn ha

theorem mem_addOnce (l : List Nat) (i j : Nat) : j ∈ addOnce l i ↔ j = i ∨ j ∈ l := by
  unfold addOnce
  split
  · constructor
    · exact Or.inr
    · rintro (rfl | h) <;> assumption
  · simp [or_comm]

theorem removeFromSets_nodup (ks : List Nat) : ∀ (f : Nat → List Nat) (i : Nat), (∀ k, (f k).Nodup) →
    ∀ k, (removeFromSets f ks i k).Nodup := by
  induction ks with
  | nil => intro f i h; exact h
  | cons a tl ih =>
    intro f i h
    refine ih _ i ?_
    intro k
    show (Midi.upd f a _ k).Nodup
    by_cases hk : k = a
    · subst hk; rw [upd_same]; exact removeFirst_nodup (h k) i
    · rw [upd_other _ hk]; exact h k

theorem mem_removeFromSets (ks : List Nat) : ∀ (f : Nat → List Nat) (i : Nat), (∀ k, (f k).Nodup) →
    ∀ k j, j ∈ removeFromSets f ks i k ↔ j ∈ f k ∧ (k ∈ ks → j ≠ i) := by
  induction ks with
  | nil => intro f i _ k j; simp [removeFromSets]
  | cons a tl ih =>
    intro f i h k j
    have hn : ∀ k, (Midi.upd f a (removeFirst (f a) i) k).Nodup := by
      intro k
      by_cases hk : k = a
      · subst hk; rw [upd_same]; exact removeFirst_nodup (h k) i
      · rw [upd_other _ hk]; exact h k
    have := ih (Midi.upd f a (removeFirst (f a) i)) i hn k j
    refine this.trans ?_
    by_cases hk : k = a
    · subst hk
      rw [upd_same, mem_removeFirst (h k)]
      simp only [List.mem_cons, true_or, forall_const]
      tauto
    · rw [upd_other _ hk]
      simp [hk]

theorem addToSets_nodup (ks : List Nat) : ∀ (f : Nat → List Nat) (i : Nat), (∀ k, (f k).Nodup) →
    ∀ k, (addToSets f ks i k).Nodup := by
  induction ks with
  | nil => intro f i h; exact h
  | cons a tl ih =>
    intro f i h
    refine ih _ i ?_
    intro k
    show (Midi.upd f a _ k).Nodup
    by_cases hk : k = a
    · subst hk; rw [upd_same]; exact addOnce_nodup (h k) i
    · rw [upd_other _ hk]; exact h k

theorem mem_addToSets (ks : List Nat) : ∀ (f : Nat → List Nat) (i : Nat) (k j : Nat),
    j ∈ addToSets f ks i k ↔ j ∈ f k ∨ (k ∈ ks ∧ j = i) := by
  induction ks with
  | nil => intro f i k j; simp [addToSets]
  | cons a tl ih =>
    intro f i k j
    refine (ih (Midi.upd f a (addOnce (f a) i)) i k j).trans ?_
    by_cases hk : k = a
    · subst hk
      rw [upd_same, mem_addOnce]
      simp only [List.mem_cons, true_or, true_and]
      tauto
    · rw [upd_other _ hk]
      simp [hk]

/-! ### Updating a voice in place -/

/-- Everything but the voices' own members is the same. -/
structure SameLinks (s s' : VM) : Prop where
  size : s'.size = s.size
  required : s'.required = s.required
  active : s'.active = s.active
  groups : s'.groups = s.groups
  setLimits : s'.setLimits = s.setLimits
  setVoices : s'.setVoices = s.setVoices
  next : s'.next = s.next
  prev : s'.prev = s.prev

theorem SameLinks.refl (s : VM) : SameLinks s s := ⟨rfl, rfl, rfl, rfl, rfl, rfl, rfl, rfl⟩

theorem SameLinks.trans {a b c : VM} (h : SameLinks a b) (h' : SameLinks b c) : SameLinks a c :=
  ⟨h'.size.trans h.size, h'.required.trans h.required, h'.active.trans h.active, h'.groups.trans h.groups,
    h'.setLimits.trans h.setLimits, h'.setVoices.trans h.setVoices, h'.next.trans h.next, h'.prev.trans h.prev⟩

theorem sameLinks_setVoice (s : VM) (i : Nat) (v : Voice) : SameLinks s (setVoice s i v) :=
  ⟨rfl, rfl, rfl, rfl, rfl, rfl, rfl, rfl⟩

variable {e}

theorem VInv.of_sameLinks {s s' : VM} (h : VInv e s) (hl : SameLinks s s')
    (hlay : ∀ i, (s'.voices i).layer = (s.voices i).layer)
    (hidle : ∀ i, (s'.voices i).state = .idle ↔ (s.voices i).state = .idle)
    (hclean : ∀ i, (s.voices i).state = .cleanMeUp → (s'.voices i).state = .cleanMeUp)
    (hoff : ∀ i, (s.voices i).layer = none → (s'.voices i).offed = (s.voices i).offed) : VInv e s' := by
  have hL : ∀ i l, Listed e s' i l ↔ Listed e s i l := by intro i l; simp [Listed, hlay]
  constructor
  · intro i; rw [hidle, hlay]; exact h.idle i
  · intro i hi; rw [hlay]; exact h.out i (by rw [hl.size] at hi; exact hi)
  · intro i l h1 h2; rw [hlay] at h1; exact hclean i (h.dis i l h1 h2)
  · intro i h1; rw [hlay] at h1; rw [hoff i h1]; exact h.idleOff i h1
  · rw [hl.active]; exact h.actN
  · intro i; rw [hl.active]; simp only [hL]; exact h.act i
  · intro g; rw [hl.groups]; exact h.grpN g
  · intro g i; rw [hl.groups]; simp only [hL]; exact h.grp g i
  · intro k; rw [hl.setVoices]; exact h.setN k
  · intro k i; rw [hl.setVoices]; simp only [hL]; exact h.set k i
  · intro i; rw [hl.next, hl.prev]; exact h.np i
  · intro i; rw [hl.next, hl.prev]; exact h.pn i
  · intro i h1; rw [hlay] at h1; rw [hl.next]; exact h.self i h1

/-- Changes of a voice that neither start nor stop it. -/
structure Soft (v v' : Voice) : Prop where
  layer : v'.layer = v.layer
  idle : v'.state = .idle ↔ v.state = .idle
  clean : v.state = .cleanMeUp → v'.state = .cleanMeUp
  off : v.layer = none → v'.offed = v.offed
  mono : v.offed = true → v'.offed = true

theorem Soft.refl (v : Voice) : Soft v v := ⟨rfl, Iff.rfl, id, fun _ => rfl, id⟩

theorem Soft.trans {a b c : Voice} (h : Soft a b) (h' : Soft b c) : Soft a c :=
  ⟨h'.layer.trans h.layer, h'.idle.trans h.idle, fun x => h'.clean (h.clean x),
    fun x => (h'.off (by rw [h.layer]; exact x)).trans (h.off x), fun x => h'.mono (h.mono x)⟩

/-- Only soft changes of voices. -/
structure SoftVM (s s' : VM) : Prop where
  links : SameLinks s s'
  voices : ∀ i, Soft (s.voices i) (s'.voices i)

theorem SoftVM.refl (s : VM) : SoftVM s s := ⟨SameLinks.refl s, fun _ => Soft.refl _⟩

theorem SoftVM.trans {a b c : VM} (h : SoftVM a b) (h' : SoftVM b c) : SoftVM a c :=
  ⟨h.links.trans h'.links, fun i => (h.voices i).trans (h'.voices i)⟩

theorem VInv.soft {s s' : VM} (h : VInv e s) (hs : SoftVM s s') : VInv e s' :=
  h.of_sameLinks hs.links (fun i => (hs.voices i).layer) (fun i => (hs.voices i).idle)
    (fun i => (hs.voices i).clean) (fun i => (hs.voices i).off)

theorem softVM_setVoice (s : VM) (i : Nat) (v : Voice) (h : Soft (s.voices i) v) : SoftVM s (setVoice s i v) := by
  refine ⟨sameLinks_setVoice s i v, ?_⟩
  intro j
  by_cases hj : j = i
  · subst hj; simpa [setVoice, upd_same] using h
  · simp only [setVoice, upd_other _ hj]; exact Soft.refl _

theorem setVoice_self (s : VM) (i : Nat) (v : Voice) : (setVoice s i v).voices i = v := by simp [setVoice, upd_same]

theorem setVoice_other (s : VM) {i j : Nat} (h : j ≠ i) (v : Voice) : (setVoice s i v).voices j = s.voices j := by
  simp [setVoice, upd_other _ h]

theorem release_soft (s : VM) (i : Nat) (d : Int) : SoftVM s (release s i d) := by
  unfold release
  by_cases h : (s.voices i).state ≠ .playing
  · simp only [h, if_true, ne_eq, not_false_eq_true]; exact SoftVM.refl s
  · have h' : (s.voices i).state = .playing := by simpa using h
    simp only [h', ne_eq, not_true_eq_false, if_false]
    refine softVM_setVoice s i _ ⟨rfl, ?_, ?_, fun _ => rfl, id⟩
    · rw [h']; split <;> simp
    · rw [h']; simp

/-- `off` succeeds on a voice with a region. -/
theorem off_some (s : VM) (i : Nat) (d : Int) (h : (s.voices i).layer ≠ none) :
    off s i d = some (release (setVoice s i { s.voices i with offed := true }) i d) := by
  unfold off
  cases hl : (s.voices i).layer with
  | none => exact absurd hl h
  | some l => rfl

theorem off_soft {s s' : VM} {i : Nat} {d : Int} (h : off s i d = some s') : SoftVM s s' := by
  unfold off at h
  cases hl : (s.voices i).layer with
  | none => rw [hl] at h; cases h
  | some l =>
    rw [hl] at h
    cases h
    refine SoftVM.trans (b := setVoice s i { s.voices i with offed := true })
      (softVM_setVoice s i _ ⟨rfl, Iff.rfl, id, ?_, fun _ => rfl⟩) (release_soft _ i d)
    intro hn; rw [hl] at hn; cases hn

theorem release_offed (s : VM) (i j : Nat) (d : Int) : ((release s i d).voices j).offed = (s.voices j).offed := by
  simp only [release]
  split
  · rfl
  · by_cases hj : j = i
    · subst hj; rw [setVoice_self]
    · rw [setVoice_other _ hj]

theorem release_trig (s : VM) (i j : Nat) (d : Int) : ((release s i d).voices j).trig = (s.voices j).trig := by
  simp only [release]
  split
  · rfl
  · by_cases hj : j = i
    · subst hj; rw [setVoice_self]
    · rw [setVoice_other _ hj]

theorem off_offed {s s' : VM} {i : Nat} {d : Int} (h : off s i d = some s') (j : Nat) :
    (s'.voices j).offed = (decide (j = i) || (s.voices j).offed) := by
  unfold off at h
  cases hl : (s.voices i).layer with
  | none => rw [hl] at h; cases h
  | some l =>
    rw [hl] at h
    cases h
    rw [release_offed]
    by_cases hj : j = i
    · subst hj; rw [setVoice_self]; simp
    · rw [setVoice_other _ hj]; simp [hj]

theorem off_trig {s s' : VM} {i : Nat} {d : Int} (h : off s i d = some s') (j : Nat) :
    (s'.voices j).trig = (s.voices j).trig := by
  unfold off at h
  cases hl : (s.voices i).layer with
  | none => rw [hl] at h; cases h
  | some l =>
    rw [hl] at h
    cases h
    rw [release_trig]
    by_cases hj : j = i
    · subst hj; rw [setVoice_self]
    · rw [setVoice_other _ hj]

theorem off_other {s s' : VM} {i : Nat} {d : Int} (h : off s i d = some s') {j : Nat} (hj : j ≠ i) :
    s'.voices j = s.voices j := by
  unfold off at h
  cases hl : (s.voices i).layer with
  | none => rw [hl] at h; cases h
  | some l =>
    rw [hl] at h
    cases h
    simp only [release]
    split
    · rw [setVoice_other _ hj]
    · rw [setVoice_other _ hj, setVoice_other _ hj]

theorem voiceNoteOff_soft (s : VM) (i : Nat) (d n : Int) : SoftVM s (voiceNoteOff e s i d n) := by
  unfold voiceNoteOff
  cases hl : (s.voices i).layer with
  | none => exact SoftVM.refl s
  | some l =>
    simp only
    split
    · exact SoftVM.refl s
    · split
      · have h1 : SoftVM s (setVoice s i { s.voices i with noteIsOff := true }) :=
          softVM_setVoice s i _ ⟨rfl, Iff.rfl, id, fun _ => rfl, id⟩
        split
        · simp only [*] at *; exact h1
        · split
          · exact h1.trans (release_soft _ i d)
          · exact h1
      · exact SoftVM.refl s

theorem voiceSost_soft (r : Region) (v : Voice) (cc : Nat) (x : ℚ) :
    Soft v (voiceSustain r (voiceSostenuto r v cc x) cc x) := by
  have a : Soft v (voiceSostenuto r v cc x) := by
    unfold voiceSostenuto
    split_ifs <;> exact ⟨rfl, Iff.rfl, id, fun _ => rfl, id⟩
  refine a.trans ?_
  unfold voiceSustain
  split_ifs <;> exact ⟨rfl, Iff.rfl, id, fun _ => rfl, id⟩

theorem voiceCC_soft (s : VM) (i : Nat) (d : Int) (cc : Nat) (x : ℚ) : SoftVM s (voiceCC e s i d cc x) := by
  unfold voiceCC
  cases hl : (s.voices i).layer with
  | none => exact SoftVM.refl s
  | some l =>
    simp only
    split
    · exact SoftVM.refl s
    · split
      · exact SoftVM.refl s
      · generalize hv : voiceSustain _ _ _ _ = v
        have h1 : SoftVM s (setVoice s i v) := softVM_setVoice s i _ (hv ▸ voiceSost_soft _ _ _ _)
        generalize setVoice s i v = s1 at h1
        have h2 : SoftVM s1 (if ((s1.voices i).noteIsOff && !(e.regions l).oneShot &&
            pedalsUp (e.regions l) (s1.voices i)) = true then release s1 i d else s1) := by
          split
          · exact release_soft _ i d
          · exact SoftVM.refl _
        generalize (if ((s1.voices i).noteIsOff && !(e.regions l).oneShot &&
            pedalsUp (e.regions l) (s1.voices i)) = true then release s1 i d else s1) = s2 at h2
        refine (h1.trans h2).trans ?_
        split
        · exact softVM_setVoice _ i _ ⟨rfl, Iff.rfl, id, fun _ => rfl, id⟩
        · exact SoftVM.refl _

theorem foldl_soft {α : Type*} (f : VM → α → VM) (hf : ∀ s a, SoftVM s (f s a)) (l : List α) :
    ∀ s, SoftVM s (l.foldl f s) := by
  induction l with
  | nil => exact SoftVM.refl
  | cons a tl ih => intro s; exact (hf s a).trans (ih _)

/-! ### Rings -/

variable (e)

/-- Next voices are in range with the voice. -/
theorem VInv.next_nonidle {s : VM} (h : VInv e s) {i : Nat} (hi : (s.voices i).layer ≠ none) :
    (s.voices (s.next i)).layer ≠ none := by
  intro hn
  have h1 := h.self _ hn
  have h2 := congrArg s.prev h1
  rw [h.pn, h.pn] at h2
  rw [h2] at hn
  exact hi hn

theorem VInv.iter_nonidle {s : VM} (h : VInv e s) {i : Nat} (hi : (s.voices i).layer ≠ none) (k : Nat) :
    (s.voices (s.next^[k] i)).layer ≠ none := by
  induction k with
  | zero => exact hi
  | succ k ih => rw [Function.iterate_succ_apply']; exact h.next_nonidle e ih

theorem VInv.lt_size {s : VM} (h : VInv e s) {i : Nat} (hi : (s.voices i).layer ≠ none) : i < s.size := by
  by_contra hc
  exact hi (h.out i (by omega))

theorem VInv.next_inj {s : VM} (h : VInv e s) : Function.Injective s.next := by
  intro a b hab
  have := congrArg s.prev hab
  rwa [h.pn, h.pn] at this

/-- The ring of a voice closes within as many steps as there are voices. -/
theorem VInv.ring_closes {s : VM} (h : VInv e s) {i : Nat} (hi : (s.voices i).layer ≠ none) :
    ∃ k, k < s.size ∧ s.next^[k + 1] i = i := by
  have hlt : ∀ k, s.next^[k] i < s.size := fun k => h.lt_size e (h.iter_nonidle e hi k)
  obtain ⟨a, b, hab, heq⟩ := Fintype.exists_ne_map_eq_of_card_lt
    (fun k : Fin (s.size + 1) => (⟨s.next^[k.val] i, hlt k.val⟩ : Fin s.size)) (by simp)
  have heq' : s.next^[a.val] i = s.next^[b.val] i := by simpa using heq
  have key : ∀ a b : Nat, a < b → s.next^[a] i = s.next^[b] i → s.next^[b - a] i = i := by
    intro a b hlt hh
    have : s.next^[b] i = s.next^[a] (s.next^[b - a] i) := by
      rw [← Function.iterate_add_apply]; congr 2; omega
    rw [this] at hh
    exact ((h.next_inj e).iterate a hh).symm
  have hne : a.val ≠ b.val := fun hc => hab (Fin.ext hc)
  rcases Nat.lt_or_gt_of_ne hne with hc | hc
  · refine ⟨b.val - a.val - 1, by omega, ?_⟩
    have : b.val - a.val - 1 + 1 = b.val - a.val := by omega
    rw [this]; exact key _ _ hc heq'
  · refine ⟨a.val - b.val - 1, by omega, ?_⟩
    have : a.val - b.val - 1 + 1 = a.val - b.val := by omega
    rw [this]; exact key _ _ hc heq'.symm

theorem ringFrom_some (s : VM) (start : Nat) : ∀ (k fuel v : Nat), k < fuel → s.next^[k] v = start →
    ∃ l, ringFrom s start fuel v = some l ∧ ∀ j ∈ l, ∃ n, j = s.next^[n] v := by
  intro k
  induction k with
  | zero =>
    intro fuel v hf hv
    obtain ⟨fuel, rfl⟩ : ∃ f, fuel = f + 1 := ⟨fuel - 1, by omega⟩
    exact ⟨[], by simp only [Function.iterate_zero, id] at hv; simp [ringFrom, hv], by simp⟩
  | succ k ih =>
    intro fuel v hf hv
    obtain ⟨fuel, rfl⟩ : ∃ f, fuel = f + 1 := ⟨fuel - 1, by omega⟩
    by_cases hs : v = start
    · exact ⟨[], by simp [ringFrom, hs], by simp⟩
    · obtain ⟨l, h1, h2⟩ := ih fuel (s.next v) (by omega) hv
      refine ⟨v :: l, by simp [ringFrom, hs, h1], ?_⟩
      intro j hj
      rcases List.mem_cons.mp hj with rfl | hj
      · exact ⟨0, rfl⟩
      · obtain ⟨n, hn⟩ := h2 j hj
        exact ⟨n + 1, hn⟩

theorem VInv.ringOf_some {s : VM} (h : VInv e s) {i : Nat} (hi : (s.voices i).layer ≠ none) :
    ∃ l, ringOf s i = some l ∧ i ∈ l ∧ ∀ j ∈ l, ∃ n, j = s.next^[n] i := by
  obtain ⟨k, hk, hc⟩ := h.ring_closes e hi
  obtain ⟨l, h1, h2⟩ := ringFrom_some s i k (s.size + 1) (s.next i) (by omega) hc
  refine ⟨l ++ [i], by simp [ringOf, h1], by simp, ?_⟩
  intro j hj
  rcases List.mem_append.mp hj with hj | hj
  · obtain ⟨n, hn⟩ := h2 j hj
    exact ⟨n + 1, hn⟩
  · simp at hj; exact ⟨0, hj⟩

/-- Turning off the voices of a list. -/
theorem foldlM_off (l : List Nat) (d : Int) : ∀ s : VM, (∀ j ∈ l, (s.voices j).layer ≠ none) →
    ∃ s', l.foldlM (fun s j => off s j d) s = some s' ∧ SoftVM s s' ∧
      (∀ j, (s'.voices j).offed = (decide (j ∈ l) || (s.voices j).offed)) ∧
      (∀ j, (s'.voices j).trig = (s.voices j).trig) ∧
      ∀ j, j ∉ l → s'.voices j = s.voices j := by
  induction l with
  | nil => intro s _; exact ⟨s, rfl, SoftVM.refl s, by simp, by simp, by simp⟩
  | cons a tl ih =>
    intro s h
    have ha := off_some s a d (h a (by simp))
    generalize hs1 : release (setVoice s a { s.voices a with offed := true }) a d = s1 at ha
    have hsoft := off_soft ha
    obtain ⟨s', h1, h2, h3, h4, h5⟩ := ih s1 (by
      intro j hj; rw [(hsoft.voices j).layer]; exact h j (by simp [hj]))
    refine ⟨s', ?_, hsoft.trans h2, ?_, ?_, ?_⟩
    · rw [List.foldlM_cons, ha]; exact h1
    · intro j
      rw [h3, off_offed ha]
      simp only [List.mem_cons]
      by_cases hja : j = a <;> simp [hja]
    · intro j; rw [h4, off_trig ha]
    · intro j hj
      simp only [List.mem_cons, not_or] at hj
      rw [h5 j hj.2, off_other ha hj.1]

/-- Turning off a ring. -/
theorem offAllSisters_ok {s : VM} (h : VInv e s) (c : Option Nat) (d : Int)
    (hc : ∀ i, c = some i → (s.voices i).layer ≠ none) :
    ∃ s', offAllSisters s c d = some s' ∧ SoftVM s s' ∧ (∀ i, c = some i → (s'.voices i).offed = true) ∧
      (∀ j, (s.voices j).offed = true → (s'.voices j).offed = true) ∧
      (∀ j, (s'.voices j).trig = (s.voices j).trig) ∧
      (∀ j, (s'.voices j).offed = false → s'.voices j = s.voices j) := by
  cases c with
  | none => exact ⟨s, rfl, SoftVM.refl s, by simp, fun _ => id, fun _ => rfl, fun _ _ => rfl⟩
  | some i =>
    have hi := hc i rfl
    obtain ⟨l, h1, h2, h3⟩ := h.ringOf_some e hi
    obtain ⟨s', h4, h5, h6, h7, h8⟩ := foldlM_off l d s (by
      intro j hj; obtain ⟨n, rfl⟩ := h3 j hj; exact h.iter_nonidle e hi n)
    refine ⟨s', by simp [offAllSisters, h1, h4], h5, ?_, ?_, h7, ?_⟩
    · intro j hj; cases hj; rw [h6]; simp [h2]
    · intro j hj; rw [h6, hj]; simp
    · intro j hj
      refine h8 j ?_
      intro hm; rw [h6] at hj; simp [hm] at hj

/-! ### Resetting and starting a voice -/

theorem removeFromRing_np {s : VM} (np : ∀ i, s.next (s.prev i) = i) (pn : ∀ i, s.prev (s.next i) = i) (i : Nat) :
    (∀ j, (removeFromRing s i).next ((removeFromRing s i).prev j) = j) ∧
    (∀ j, (removeFromRing s i).prev ((removeFromRing s i).next j) = j) ∧
    (removeFromRing s i).next i = i ∧
    (∀ j, j ≠ i → (removeFromRing s i).next j = if s.next j = i then s.next i else s.next j) := by
  have inj : ∀ a b, s.next a = s.next b → a = b := fun a b hab => by
    have := congrArg s.prev hab; rwa [pn, pn] at this
  have pinj : ∀ a b, s.prev a = s.prev b → a = b := fun a b hab => by
    have := congrArg s.next hab; rwa [np, np] at this
  have e1 : ∀ j, (removeFromRing s i).next j = if j = i then i else if j = s.prev i then s.next i else s.next j := by
    intro j; simp [removeFromRing, Midi.upd]
  have e2 : ∀ j, (removeFromRing s i).prev j = if j = i then i else if j = s.next i then s.prev i else s.prev j := by
    intro j; simp [removeFromRing, Midi.upd]
  refine ⟨?_, ?_, by simp [e1], ?_⟩
  · intro j
    rw [e2]
    by_cases h1 : j = i
    · subst h1; simp [e1]
    · by_cases h2 : j = s.next i
      · subst h2
        rw [if_neg h1, if_pos rfl, e1]
        have : s.prev i ≠ i := by
          intro hc; apply h1; have := congrArg s.next hc; rw [np] at this; exact this.symm
        simp [this]
      · rw [if_neg h1, if_neg h2, e1]
        have h3 : s.prev j ≠ i := by
          intro hc; apply h2; rw [← hc, np]
        have h4 : s.prev j ≠ s.prev i := fun hc => h1 (pinj _ _ hc)
        simp [h3, h4, np]
  · intro j
    rw [e1]
    by_cases h1 : j = i
    · subst h1; simp [e2]
    · by_cases h2 : j = s.prev i
      · subst h2
        rw [if_neg h1, if_pos rfl, e2]
        have : s.next i ≠ i := by
          intro hc; apply h1; have := congrArg s.prev hc; rw [pn] at this; exact this.symm
        simp [this]
      · rw [if_neg h1, if_neg h2, e2]
        have h3 : s.next j ≠ i := by
          intro hc; apply h2; rw [← hc, pn]
        have h4 : s.next j ≠ s.next i := fun hc => h1 (inj _ _ hc)
        simp [h3, h4, pn]
  · intro j hj
    rw [e1, if_neg hj]
    by_cases h2 : j = s.prev i
    · subst h2; simp [np]
    · rw [if_neg h2, if_neg]
      intro hc; apply h2; rw [← hc, pn]

/-- What a reset voice looks like. -/
def cleared (v : Voice) : Voice :=
  { v with state := .idle, layer := none, age := 0, noteIsOff := false, sostenuto := .up, offed := false }

/-- `reset` always succeeds; afterwards the voice is idle and in no list, the other voices are as before. -/
theorem reset_ok {s : VM} (h : VInv e s) (i : Nat) :
    ∃ s', reset e s i = some s' ∧ VInv e s' ∧ s'.voices = Midi.upd s.voices i (cleared (s.voices i)) ∧
      s'.size = s.size ∧ s'.required = s.required ∧ s'.setLimits = s.setLimits ∧
      (∀ g, (s'.groups g).limit = (s.groups g).limit) ∧ (∀ g, (s'.groups g).recent = (s.groups g).recent) := by
  cases hl : (s.voices i).layer with
  | none =>
    have hst := (h.idle i).mpr hl
    have hv : cleared (s.voices i) = { s.voices i with layer := none, age := 0, noteIsOff := false, sostenuto := .up, offed := false } := by
      simp [cleared, hst]
    obtain ⟨r1, r2, r3, r4⟩ := removeFromRing_np h.np h.pn i
    refine ⟨removeFromRing (setVoice s i (cleared (s.voices i))) i, ?_, ?_, rfl, rfl, rfl, rfl, fun _ => rfl, fun _ => rfl⟩
    · have hsw : switchState e s i .idle = some s := by simp [switchState, hst]
      unfold reset
      rw [hsw, hv]
      rfl
    · have hsoft : SoftVM s (setVoice s i (cleared (s.voices i))) := softVM_setVoice s i _
        ⟨by simp [cleared, hl], by simp [cleared, hst], by simp [hst], by intro _; simp [cleared, h.idleOff i hl],
          by rw [h.idleOff i hl]; simp⟩
      have h' := h.soft hsoft
      generalize setVoice s i (cleared (s.voices i)) = s1 at h'
      obtain ⟨r1, r2, r3, r4⟩ := removeFromRing_np h'.np h'.pn i
      refine ⟨h'.idle, h'.out, h'.dis, h'.idleOff, h'.actN, h'.act, h'.grpN, h'.grp, h'.setN, h'.set, r1, r2, ?_⟩
      intro j hj
      by_cases hji : j = i
      · subst hji; exact r3
      · rw [r4 j hji, if_neg]
        · exact h'.self j hj
        · rw [h'.self j hj]; exact hji
  | some l =>
    have hst : (s.voices i).state ≠ .idle := by rw [ne_eq, h.idle, hl]; simp
    have hsw : switchState e s i .idle = some (onIdle e (setVoice s i { s.voices i with state := .idle }) i l) := by
      unfold switchState
      rw [if_neg (fun hc => hst hc.symm)]
      simp only [setVoice_self, hl]
    let s1 := onIdle e (setVoice s i { s.voices i with state := .idle }) i l
    let s2 := setVoice s1 i { s1.voices i with layer := none, age := 0, noteIsOff := false, sostenuto := .up, offed := false }
    have hres : reset e s i = some (removeFromRing s2 i) := by
      unfold reset; rw [hsw]; rfl
    have hvoices : (removeFromRing s2 i).voices = Midi.upd s.voices i (cleared (s.voices i)) := by
      funext j
      simp only [removeFromRing, s2, s1, setVoice, onIdle, Midi.upd, cleared]
      by_cases hj : j = i <;> simp [hj]
    have hL : ∀ j l', Listed e (removeFromRing s2 i) j l' ↔ j ≠ i ∧ Listed e s j l' := by
      intro j l'
      unfold Listed
      rw [hvoices]
      by_cases hj : j = i
      · subst hj; rw [upd_same]; simp [cleared]
      · rw [upd_other _ hj]; simp [hj]
    obtain ⟨r1, r2, r3, r4⟩ := removeFromRing_np (s := s2) h.np h.pn i
    refine ⟨_, hres, ⟨?_, ?_, ?_, ?_, ?_, ?_, ?_, ?_, ?_, ?_, r1, r2, ?_⟩, hvoices, rfl, rfl, rfl, ?_, ?_⟩
    · intro j
      rw [hvoices]
      by_cases hj : j = i
      · subst hj; rw [upd_same]; simp [cleared]
      · rw [upd_other _ hj]; exact h.idle j
    · intro j hj
      rw [hvoices]
      by_cases hji : j = i
      · subst hji; rw [upd_same]; simp [cleared]
      · rw [upd_other _ hji]; exact h.out j hj
    · intro j l'
      rw [hvoices]
      by_cases hji : j = i
      · subst hji; rw [upd_same]; simp [cleared]
      · rw [upd_other _ hji]; exact h.dis j l'
    · intro j
      rw [hvoices]
      by_cases hji : j = i
      · subst hji; rw [upd_same]; simp [cleared]
      · rw [upd_other _ hji]; exact h.idleOff j
    · exact removeFirst_nodup h.actN i
    · intro j
      simp only [hL]
      refine (mem_removeFirst h.actN i j).trans ?_
      rw [h.act]; simp
    · intro g
      show ((Midi.upd s.groups _ _) g).voices.Nodup
      by_cases hg : g = (e.regions l).group
      · subst hg; rw [upd_same]; exact removeFirst_nodup (h.grpN _) i
      · rw [upd_other _ hg]; exact h.grpN g
    · intro g j
      simp only [hL]
      show j ∈ ((Midi.upd s.groups _ _) g).voices ↔ _
      by_cases hg : g = (e.regions l).group
      · subst hg; rw [upd_same]
        refine (mem_removeFirst (h.grpN _) i j).trans ?_
        rw [h.grp]
        constructor
        · rintro ⟨a, l', b, c⟩; exact ⟨l', ⟨a, b⟩, c⟩
        · rintro ⟨l', ⟨a, b⟩, c⟩; exact ⟨a, l', b, c⟩
      · rw [upd_other _ hg]
        refine (h.grp g j).trans ?_
        constructor
        · rintro ⟨l', b, c⟩
          refine ⟨l', ⟨?_, b⟩, c⟩
          rintro rfl
          have : l' = l := by have := b.1; rw [hl] at this; injection this with h'; exact h'.symm
          subst this; exact hg c.symm
        · rintro ⟨l', ⟨a, b⟩, c⟩; exact ⟨l', b, c⟩
    · exact removeFromSets_nodup _ _ i h.setN
    · intro k j
      simp only [hL]
      refine (mem_removeFromSets _ _ i h.setN k j).trans ?_
      refine (and_congr_left' (h.set k j)).trans ?_
      constructor
      · rintro ⟨⟨l', b, c⟩, d⟩
        refine ⟨l', ⟨?_, b⟩, c⟩
        rintro rfl
        have : l' = l := by have := b.1; rw [hl] at this; injection this with h'; exact h'.symm
        subst this; exact d c rfl
      · rintro ⟨l', ⟨a, b⟩, c⟩; exact ⟨⟨l', b, c⟩, fun _ => a⟩
    · intro j hj
      by_cases hji : j = i
      · subst hji; exact r3
      · rw [hvoices, upd_other _ hji] at hj
        rw [r4 j hji]
        show (if s.next j = i then s.next i else s.next j) = j
        rw [if_neg]
        · exact h.self j hj
        · rw [h.self j hj]; exact hji
    · intro g
      show ((Midi.upd s.groups _ _) g).limit = _
      by_cases hg : g = (e.regions l).group
      · subst hg; rw [upd_same]; rfl
      · rw [upd_other _ hg]
    · intro g
      show ((Midi.upd s.groups _ _) g).recent = _
      by_cases hg : g = (e.regions l).group
      · subst hg; rw [upd_same]; rfl
      · rw [upd_other _ hg]

end Verif.Engine
