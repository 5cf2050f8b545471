import Verif.Engine.Hold

/-! The polyphony checks consist of voices being turned off. -/
namespace Verif.Engine

open Relation (ReflTransGen)

/-- Some voices were turned off, one after the other. -/
abbrev OffSteps (s s' : VM) : Prop := ReflTransGen (fun a b => ∃ i d, off a i d = some b) s s'

theorem foldlM_offSteps {α : Type*} (f : VM → α → Option VM) (hf : ∀ a s s', f s a = some s' → OffSteps s s') (L : List α) (s s' : VM)
    (h : L.foldlM f s = some s') : OffSteps s s' :=
  foldlM_atoms OffSteps (fun _ => .refl) (fun _ _ _ => .trans) f L s s' (fun a _ => hf a) h

theorem offAllSisters_steps {s s' : VM} {o : Option Nat} {d : Int} (ho : offAllSisters s o d = some s') : OffSteps s s' := by
  unfold offAllSisters at ho
  cases o with
  | none => cases ho; exact .refl
  | some i =>
    simp only at ho
    rw [Option.bind_eq_bind, Option.bind_eq_some_iff] at ho
    obtain ⟨ring, _, h2⟩ := ho
    exact foldlM_offSteps _ (fun a s s' h' => .single ⟨a, d, h'⟩) ring s s' h2

theorem limitVoices_steps {e : Env} {s s' : VM} {L : List Nat} {n : Nat} {d : Int} (ho : limitVoices e s L n d = some s') :
    OffSteps s s' := by
  unfold limitVoices at ho
  rw [Option.bind_eq_bind, Option.bind_eq_some_iff] at ho
  obtain ⟨o, _, h2⟩ := ho
  exact offAllSisters_steps h2

theorem noteLoop_steps {d : Int} {target : Nat} : ∀ (L : List Nat) (n : Nat) (s s' : VM),
    noteLoop s d target L n = some s' → OffSteps s s' := by
  intro L
  induction L with
  | nil => intro n s s' h'; cases h'; exact .refl
  | cons a tl ih =>
    intro n s s' h'
    unfold Engine.noteLoop at h'
    split at h'
    · simp only [Option.bind_eq_bind] at h'
      by_cases hf : offedOrFree s a = true
      · rw [if_pos hf] at h'
        exact ih _ s s' h'
      · rw [if_neg hf, Option.bind_eq_some_iff] at h'
        obtain ⟨s1, h1, h2⟩ := h'
        exact (offAllSisters_steps h1).trans (ih _ s1 s' h2)
    · cases h'; exact .refl

theorem checkPolyphony_steps {e : Env} {s s' : VM} {l : Nat} {d : Int} {t : Trig}
    (ho : checkPolyphony e s l d t = some s') : OffSteps s s' := by
  unfold Engine.checkPolyphony at ho
  simp only [Option.bind_eq_bind, Option.bind_eq_some_iff] at ho
  obtain ⟨s1, h1, s2, h2, s3, h3, s4, h4, h5⟩ := ho
  have k1 : OffSteps s s1 := by
    unfold checkNotePolyphony at h1
    split at h1
    · cases h1; exact .refl
    · exact noteLoop_steps _ _ _ _ h1
  have k4 : OffSteps s3 s4 := by
    unfold checkSetPolyphony at h4
    exact foldlM_offSteps _ (fun a s s' h' => limitVoices_steps h') _ s3 s4 h4
  exact (((k1.trans (limitVoices_steps h2)).trans (limitVoices_steps h3)).trans k4).trans (limitVoices_steps h5)

/-- What turning off leaves alone. -/
structure OffFrame (s s' : VM) : Prop where
  size : s'.size = s.size
  active : s'.active = s.active
  next : s'.next = s.next
  prev : s'.prev = s.prev
  groups : s'.groups = s.groups
  setVoices : s'.setVoices = s.setVoices
  layer : ∀ i, (s'.voices i).layer = (s.voices i).layer
  trig : ∀ i, (s'.voices i).trig = (s.voices i).trig

theorem release_frame (s : VM) (i : Nat) (d : Int) : (release s i d).size = s.size ∧ (release s i d).active = s.active ∧
    (release s i d).next = s.next ∧ (release s i d).prev = s.prev ∧ (release s i d).groups = s.groups ∧
    (release s i d).setVoices = s.setVoices := by
  unfold release
  simp only
  split <;> exact ⟨rfl, rfl, rfl, rfl, rfl, rfl⟩

theorem off_frame {s s' : VM} {i : Nat} {d : Int} (h : off s i d = some s') : OffFrame s s' := by
  have hw := off_writes h
  have hk : ∀ j, (s'.voices j).layer = (s.voices j).layer ∧ (s'.voices j).trig = (s.voices j).trig := by
    intro j
    by_cases hj : j = i
    · subst hj
      rw [hw.at]
      unfold offRec releaseRec
      split <;> exact ⟨rfl, rfl⟩
    · rw [hw.other hj]; exact ⟨rfl, rfl⟩
  unfold off at h
  split at h
  · cases h
  · cases h
    obtain ⟨a1, a2, a3, a4, a5, a6⟩ := release_frame (setVoice s i { s.voices i with offed := true }) i d
    exact ⟨a1, a2, a3, a4, a5, a6, fun j => (hk j).1, fun j => (hk j).2⟩

theorem OffSteps.frame {s s' : VM} (h : OffSteps s s') : OffFrame s s' := by
  induction h with
  | refl => exact ⟨rfl, rfl, rfl, rfl, rfl, rfl, fun _ => rfl, fun _ => rfl⟩
  | tail _ h ih =>
    obtain ⟨i, d, h⟩ := h
    have k := off_frame h
    exact ⟨k.size.trans ih.size, k.active.trans ih.active, k.next.trans ih.next, k.prev.trans ih.prev, k.groups.trans ih.groups,
      k.setVoices.trans ih.setVoices, fun i => (k.layer i).trans (ih.layer i), fun i => (k.trig i).trans (ih.trig i)⟩

theorem startVoice_size {e : Env} {s s' : VM} {m : Midi.State} {l : Nat} {d : Int} {t : Trig} {head head' : Option Nat}
    (ho : startVoice e s m l d t head = some (s', head')) : s'.size = s.size := by
  unfold Engine.startVoice at ho
  rw [Option.bind_eq_bind, Option.bind_eq_some_iff] at ho
  obtain ⟨s1, h1, h2⟩ := ho
  have k1 := (checkPolyphony_steps h1).frame.size
  cases hf : findFreeVoice s1 with
  | none => rw [hf] at h2; cases h2; exact k1
  | some i =>
    rw [hf] at h2
    simp only [Option.bind_eq_bind, Option.bind_eq_some_iff] at h2
    obtain ⟨s2, h3, ⟨s3, ok⟩, h4, h5⟩ := h2
    have w2 := reset_writes h3
    obtain ⟨v, w3, hv⟩ := voiceStart_writes h4
    have k3 : s3.size = s.size := (w3.size.trans w2.size).trans k1
    simp only [Option.pure_def, Option.some.injEq] at h5
    cases ok with
    | true =>
      simp only [if_true] at h5
      have : s' = (addToRing s3 head i).1 := by rw [h5]
      rw [this]; exact k3
    | false =>
      simp only [Bool.false_eq_true, if_false, Prod.mk.injEq] at h5
      rw [← h5.1]; exact k3

end Verif.Engine
