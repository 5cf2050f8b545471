import Verif.Engine.Life
import Mathlib.Logic.Relation

/-! The elementary steps of which every dispatch consists, and what they leave alone. -/
namespace Verif.Engine

open Verif.Layer (Region)
open Relation (ReflTransGen)

variable (c : Cfg)

/-- Elementary steps of a note-off dispatch. -/
inductive OffAtom : E → E → Prop
  | choke (s : E) (i : Nat) (d : Int) (vm : VM) (h : off s.vm i d = some vm) : OffAtom s { s with vm := vm }
  | start (s : E) (l : Nat) (d note : Int) (v : ℚ) (head head' : Option Nat) (vm : VM)
      (h : startVoice c.toEnv s.vm s.midi l d { type := .noteOff, number := note, value := v } head = some (vm, head')) :
      OffAtom s { s with vm := vm }
  | register (s : E) (l : Nat) (note : Int) (v u : ℚ) (h : l ∈ noteLayers c note) :
      OffAtom s (setLayer s l (Layer.registerNoteOff (c.regions l) s.midi (s.layers l) note v u).1)
  | up (s : E) (l : Nat) (note : Int) (h : l ∈ upLayers c note) :
      OffAtom s (setLayer s l { s.layers l with keySwitched := true })
  | down (s : E) (l : Nat) (note : Int) (h : l ∈ downLayers c note) :
      OffAtom s (setLayer s l { s.layers l with keySwitched := false })
  | draw (s : E) : OffAtom s (draw s)

/-- What a dispatch of note-offs can do. -/
abbrev Offs (s s' : E) : Prop := ReflTransGen (OffAtom c) s s'

variable {c}

theorem foldlM_atoms {σ α : Type*} (R : σ → σ → Prop) (hrefl : ∀ s, R s s) (htrans : ∀ a b c, R a b → R b c → R a c)
    (f : σ → α → Option σ) : ∀ (l : List α) (s s' : σ), (∀ a ∈ l, ∀ s s', f s a = some s' → R s s') →
      l.foldlM f s = some s' → R s s' := by
  intro l
  induction l with
  | nil => intro s s' _ h; cases h; exact hrefl s
  | cons a tl ih =>
    intro s s' hf h
    rw [List.foldlM_cons, Option.bind_eq_bind, Option.bind_eq_some_iff] at h
    obtain ⟨s1, h1, h2⟩ := h
    exact htrans _ _ _ (hf a (by simp) s s1 h1) (ih s1 s' (fun b hb => hf b (by simp [hb])) h2)

theorem setKeySwitched_atoms (b : Bool) (note : Int) : ∀ (ls : List Nat) (s : E),
    (∀ l ∈ ls, b = true ∧ l ∈ upLayers c note ∨ b = false ∧ l ∈ downLayers c note) → Offs c s (setKeySwitched s ls b) := by
  intro ls
  induction ls with
  | nil => intro s _; exact .refl
  | cons a tl ih =>
    intro s h
    have h1 : Offs c s (setLayer s a { s.layers a with keySwitched := b }) := by
      rcases h a (by simp) with ⟨rfl, hm⟩ | ⟨rfl, hm⟩
      · exact .single (.up s a note hm)
      · exact .single (.down s a note hm)
    exact h1.trans (ih _ (fun l hl => h l (by simp [hl])))

theorem noteOffSwitches_atoms (s : E) (note : Int) : Offs c s (noteOffSwitches c s note) :=
  (setKeySwitched_atoms true note _ s (fun l hl => Or.inl ⟨rfl, hl⟩)).trans
    (setKeySwitched_atoms false note _ _ (fun l hl => Or.inr ⟨rfl, hl⟩))

theorem checkOffGroup_off {e : Env} {s : VM} {cc : Nat → Bool} {i : Nat} {r : Region} {d n : Int} {vm : VM} {hit : Bool}
    (h : checkOffGroup e s cc i r d n = some (vm, hit)) : (hit = false ∧ vm = s) ∨ (hit = true ∧ off s i d = some vm) := by
  unfold checkOffGroup at h
  cases hl : (s.voices i).layer with
  | none => rw [hl] at h; cases h; exact Or.inl ⟨rfl, rfl⟩
  | some l =>
    rw [hl] at h
    simp only at h
    split at h
    · cases h; exact Or.inl ⟨rfl, rfl⟩
    · split at h
      · rw [Option.map_eq_some_iff] at h
        obtain ⟨vm', h1, h2⟩ := h
        cases h2; exact Or.inr ⟨rfl, h1⟩
      · cases h; exact Or.inl ⟨rfl, rfl⟩

theorem chokeOne_atoms {disp : E → Int → Int → ℚ → Option E}
    (hd : ∀ s d k v s', disp s d k v = some s' → Offs c s s') {r : Region} {d n : Int} {b : Bool} {s s' : E} {i : Nat}
    (h : chokeOne c disp r d n b s i = some s') : Offs c s s' := by
  unfold chokeOne at h
  rw [Option.bind_eq_bind, Option.bind_eq_some_iff] at h
  obtain ⟨⟨vm, hit⟩, h1, h2⟩ := h
  simp only at h2
  rcases checkOffGroup_off h1 with ⟨rfl, rfl⟩ | ⟨rfl, h3⟩
  · simp only [Bool.false_eq_true, if_false] at h2
    cases h2; exact .refl
  · have h4 : Offs c s { s with vm := vm } := .single (.choke s i d vm h3)
    simp only [if_true] at h2
    split at h2
    · exact h4.trans (hd _ _ _ _ _ h2)
    · cases h2; exact h4

theorem checkOffGroups_atoms {disp : E → Int → Int → ℚ → Option E}
    (hd : ∀ s d k v s', disp s d k v = some s' → Offs c s s') {r : Region} {d n : Int} {b : Bool} {s s' : E}
    (h : checkOffGroups c disp r d n b s = some s') : Offs c s s' :=
  foldlM_atoms (Offs c) (fun _ => .refl) (fun _ _ _ => .trans) _ _ _ _ (fun _ _ _ _ h => chokeOne_atoms hd h) h

theorem start_eq {s s' : E} {l : Nat} {d : Int} {t : Trig} {head head' : Option Nat}
    (h : start c s l d t head = some (s', head')) :
    ∃ vm, startVoice c.toEnv s.vm s.midi l d t head = some (vm, head') ∧ s' = { s with vm := vm } := by
  unfold start at h
  rw [Option.bind_eq_bind, Option.bind_eq_some_iff] at h
  obtain ⟨⟨vm, hd⟩, h1, h2⟩ := h
  cases h2
  exact ⟨vm, h1, rfl⟩

theorem noteOffLayer_atoms {disp : E → Int → Int → ℚ → Option E}
    (hd : ∀ s d k v s', disp s d k v = some s' → Offs c s s') {d note : Int} {v u : ℚ} {sh sh' : E × Option Nat} {l : Nat}
    (hl : l ∈ noteLayers c note) (h : noteOffLayer c disp d note v u sh l = some sh') : Offs c sh.1 sh'.1 := by
  obtain ⟨s, head⟩ := sh
  obtain ⟨s', head'⟩ := sh'
  unfold noteOffLayer at h
  have h0 : Offs c s (setLayer s l (Layer.registerNoteOff (c.regions l) s.midi (s.layers l) note v u).1) :=
    .single (.register s l note v u hl)
  simp only at h
  split at h
  · split at h
    · cases h; exact h0
    · rw [Option.bind_eq_bind, Option.bind_eq_some_iff] at h
      obtain ⟨s1, h1, h2⟩ := h
      obtain ⟨vm, h3, rfl⟩ := start_eq h2
      exact (h0.trans (checkOffGroups_atoms hd h1)).trans (.single (.start s1 l d note v head head' vm h3))
  · cases h; exact h0

/-- Every note-off dispatch, with all the chokes it causes, consists of elementary steps. -/
theorem noteOffDispatch_atoms : ∀ (fuel : Nat) (s : E) (d k : Int) (v : ℚ) (s' : E),
    noteOffDispatch c fuel s d k v = some s' → Offs c s s' := by
  intro fuel
  induction fuel with
  | zero => intro s d k v s' h; cases h
  | succ fuel ih =>
    intro s d k v s' h
    unfold noteOffDispatch at h
    simp only at h
    rw [Option.bind_eq_bind, Option.bind_eq_some_iff] at h
    obtain ⟨⟨s1, h1⟩, h2, h3⟩ := h
    cases h3
    have h4 : Offs c s (noteOffSwitches c (draw s) k) :=
      (ReflTransGen.single (OffAtom.draw s)).trans (noteOffSwitches_atoms _ _)
    exact h4.trans (foldlM_atoms (fun a b : E × Option Nat => Offs c a.1 b.1) (fun _ => .refl) (fun _ _ _ => .trans)
      _ _ _ _ (fun l hl sh sh' h => noteOffLayer_atoms ih hl h) h2)

/-! ### What note-offs leave alone -/

/-- The members of a layer that note-offs do not touch. -/
structure Core where
  sustainPressed : Bool
  sostenutoPressed : Bool
  previousKeySwitched : Bool
  sequenceSwitched : Bool
  pitchSwitched : Bool
  programSwitched : Bool
  bpmSwitched : Bool
  aftertouchSwitched : Bool
  ccSwitched : Nat → Bool
  sequenceCounter : Nat

/-- The core of a layer. -/
def core (s : Layer.State) : Core :=
  ⟨s.sustainPressed, s.sostenutoPressed, s.previousKeySwitched, s.sequenceSwitched, s.pitchSwitched, s.programSwitched,
    s.bpmSwitched, s.aftertouchSwitched, s.ccSwitched, s.sequenceCounter⟩

theorem delaySustain_core (r : Region) (s : Layer.State) (n : Int) (v : ℚ) :
    core (Layer.delaySustainRelease r s n v) = core s ∧ (Layer.delaySustainRelease r s n v).keySwitched = s.keySwitched ∧
      (Layer.delaySustainRelease r s n v).delayedSostenuto = s.delayedSostenuto := by
  unfold Layer.delaySustainRelease; split <;> exact ⟨rfl, rfl, rfl⟩

theorem delaySostenuto_core (r : Region) (s : Layer.State) (n : Int) (v : ℚ) :
    core (Layer.delaySostenutoRelease r s n v) = core s ∧
      (Layer.delaySostenutoRelease r s n v).keySwitched = s.keySwitched ∧
      (Layer.delaySostenutoRelease r s n v).delayedSustain = s.delayedSustain := by
  unfold Layer.delaySostenutoRelease; split <;> exact ⟨rfl, rfl, rfl⟩

theorem removeSostenuto_core (s : Layer.State) (n : Int) :
    core (Layer.removeFromSostenutoReleases s n) = core s ∧
      (Layer.removeFromSostenutoReleases s n).keySwitched = s.keySwitched := ⟨rfl, rfl⟩

theorem registerNoteOff_core (r : Region) (m : Midi.State) (s : Layer.State) (n : Int) (v u : ℚ) :
    core (Layer.registerNoteOff r m s n v u).1 = core s ∧ (Layer.registerNoteOff r m s n v u).1.keySwitched = s.keySwitched := by
  unfold Layer.registerNoteOff
  split
  · exact ⟨rfl, rfl⟩
  split
  · exact ⟨rfl, rfl⟩
  split
  · exact ⟨rfl, rfl⟩
  split
  · exact ⟨rfl, rfl⟩
  split
  · simp only
    have key : ∀ s' : Layer.State, core s' = core s ∧ s'.keySwitched = s.keySwitched → ∀ b : Bool,
        core (if !s'.sostenutoPressed || !b then
          if s'.sustainPressed then (Layer.delaySustainRelease r s' n (Layer.noteVelocity m n), false) else (s', true)
          else (s', false)).1 = core s ∧ (if !s'.sostenutoPressed || !b then
          if s'.sustainPressed then (Layer.delaySustainRelease r s' n (Layer.noteVelocity m n), false) else (s', true)
          else (s', false)).1.keySwitched = s.keySwitched := by
      intro s' h b
      split
      · split
        · obtain ⟨a, b, _⟩ := delaySustain_core r s' n (Layer.noteVelocity m n)
          exact ⟨a.trans h.1, b.trans h.2⟩
        · exact h
      · exact h
    apply key
    split
    · split
      · obtain ⟨a, b, _⟩ := delaySustain_core r (Layer.removeFromSostenutoReleases s n) n (Layer.noteVelocity m n)
        exact ⟨a.trans (removeSostenuto_core s n).1, b.trans (removeSostenuto_core s n).2⟩
      · exact removeSostenuto_core s n
    · exact ⟨rfl, rfl⟩
  · exact ⟨rfl, rfl⟩

theorem OffAtom.frame {s s' : E} (h : OffAtom c s s') :
    s'.midi = s.midi ∧ s'.currentSwitch = s.currentSwitch ∧ ∀ l, core (s'.layers l) = core (s.layers l) := by
  have key : ∀ (s : E) (l : Nat) (ls : Layer.State), core ls = core (s.layers l) →
      ∀ k, core ((setLayer s l ls).layers k) = core (s.layers k) := by
    intro s l ls h k
    simp only [setLayer, Midi.upd]
    split
    · rename_i hk; subst hk; exact h
    · rfl
  cases h with
  | choke i d vm h => exact ⟨rfl, rfl, fun _ => rfl⟩
  | start l d note v head head' vm h => exact ⟨rfl, rfl, fun _ => rfl⟩
  | register l note v u h => exact ⟨rfl, rfl, key s l _ (registerNoteOff_core ..).1⟩
  | up l note h => exact ⟨rfl, rfl, key s l _ rfl⟩
  | down l note h => exact ⟨rfl, rfl, key s l _ rfl⟩
  | draw => exact ⟨rfl, rfl, fun _ => rfl⟩

theorem Offs.frame {s s' : E} (h : Offs c s s') :
    s'.midi = s.midi ∧ s'.currentSwitch = s.currentSwitch ∧ ∀ l, core (s'.layers l) = core (s.layers l) := by
  induction h with
  | refl => exact ⟨rfl, rfl, fun _ => rfl⟩
  | tail _ h ih =>
    obtain ⟨a, b, d⟩ := h.frame
    exact ⟨a.trans ih.1, b.trans ih.2.1, fun l => (d l).trans (ih.2.2 l)⟩

end Verif.Engine
