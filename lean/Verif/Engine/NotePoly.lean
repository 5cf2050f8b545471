import Verif.Engine.Props
import Verif.Engine.Rings

/-!
# Which voices make room for a start (C73)

`note_polyphony`, `note_selfmask` and the choice of the stealers.
-/
namespace Verif.Engine

open Verif.Layer (Region)

variable {e : Env}

/-! ### Specification -/

/-- A sounding voice of the group, started by the note. -/
def OfNote (e : Env) (s : VM) (g : Int) (number : Int) (i : Nat) : Prop :=
  (s.voices i).state = .playing ∧ (s.voices i).offed = false ∧ (s.voices i).trig.number = number ∧
    ∃ l, (s.voices i).layer = some l ∧ ((e.regions l).group : Int) = g

instance (e : Env) (s : VM) (g number : Int) (i : Nat) : Decidable (OfNote e s g number i) := by
  unfold OfNote
  cases (s.voices i).layer with
  | none => exact decidable_of_iff False (by simp)
  | some l => exact decidable_of_iff ((s.voices i).state = .playing ∧ (s.voices i).offed = false ∧ (s.voices i).trig.number = number ∧
      ((e.regions l).group : Int) = g) (by simp)

/-- The sounding voices of the group started by the note. -/
def ofNote (e : Env) (s : VM) (g number : Int) : Finset Nat := (Finset.range s.size).filter (OfNote e s g number)

/-- `j` was started with `i`, in the ring of sisters. -/
def Sister (s : VM) (i j : Nat) : Prop := ∃ n, j = s.next^[n] i

/-- `a` goes before `b` when voices of a note have to stop: softer first with `note_selfmask`, else older first. -/
def Before (s : VM) (mask : Bool) (a b : Nat) : Prop :=
  if mask then (s.voices a).trig.value < (s.voices b).trig.value else (s.voices a).age > (s.voices b).age

/-! ### Lemmas -/

theorem mem_noteVoices {s : VM} (h : VInv e s) (r : Region) (number : Int) (i : Nat) :
    i ∈ noteVoices e s r number ↔ OfNote e s r.group number i := by
  simp only [noteVoices, List.mem_filter, Bool.and_eq_true, Bool.not_eq_true', decide_eq_true_eq, OfNote]
  constructor
  · rintro ⟨_, ⟨h1, h2⟩, h3⟩
    obtain ⟨a, b⟩ := (sounds_iff s i).mp h1
    refine ⟨a, b, h3, ?_⟩
    cases hl : (s.voices i).layer with
    | none => rw [hl] at h2; cases h2
    | some l => rw [hl] at h2; exact ⟨l, rfl, by simpa using h2⟩
  · rintro ⟨a, b, h3, l, hl, hg⟩
    have hs : Sounds s i := (sounds_iff s i).mpr ⟨a, b⟩
    refine ⟨(h.act i).mpr (h.sounds_layer hs), ⟨hs, ?_⟩, h3⟩
    rw [hl]; simpa using hg

theorem mem_ofNote {s : VM} (h : VInv e s) (g number : Int) (i : Nat) : i ∈ ofNote e s g number ↔ OfNote e s g number i := by
  simp only [ofNote, Finset.mem_filter, Finset.mem_range, and_iff_right_iff_imp]
  rintro ⟨_, _, _, l, hl, _⟩
  by_contra hc
  have := h.out i (by omega)
  rw [hl] at this; cases this

theorem noteVoices_nodup {s : VM} (h : VInv e s) (r : Region) (number : Int) : (noteVoices e s r number).Nodup := h.actN.filter _

theorem noteVoices_card {s : VM} (h : VInv e s) (r : Region) (number : Int) :
    (noteVoices e s r number).length = (ofNote e s r.group number).card := by
  rw [← List.toFinset_card_of_nodup (noteVoices_nodup h r number)]
  congr 1
  ext i
  rw [List.mem_toFinset, mem_noteVoices h, mem_ofNote h]

theorem OffVM.keepsNote {s s' : VM} (h : OffVM s s') {g number : Int} {i : Nat} (hi : OfNote e s' g number i) : OfNote e s g number i := by
  obtain ⟨a, b, c, d⟩ := hi
  have := h.same i b
  rw [this] at a b c d
  exact ⟨a, b, c, d⟩

theorem OffVM.note_subset {s s' : VM} (h : OffVM s s') (g number : Int) : ofNote e s' g number ⊆ ofNote e s g number := by
  intro i hi
  simp only [Verif.Engine.ofNote, Finset.mem_filter, Finset.mem_range] at hi ⊢
  exact ⟨by rw [← h.soft.links.size]; exact hi.1, h.keepsNote hi.2⟩

/-- Choking a ring only touches the ring. -/
theorem offAllSisters_only {s s' : VM} {i : Nat} {d : Int} (h : VInv e s) (hi : (s.voices i).layer ≠ none)
    (ho : offAllSisters s (some i) d = some s') (j : Nat) (hj : ¬ Sister s i j) : s'.voices j = s.voices j := by
  obtain ⟨l, h1, h2, h3⟩ := h.ringOf_some e hi
  obtain ⟨s2, h4, _, _, _, h8⟩ := foldlM_off l d s (by
    intro j hj; obtain ⟨n, rfl⟩ := h3 j hj; exact h.iter_nonidle e hi n)
  have : offAllSisters s (some i) d = some s2 := by simp [offAllSisters, h1, h4]
  rw [ho] at this; cases this
  exact h8 j (fun hm => hj (h3 j hm))

/-- The loop stops the first voices of its list, as many as are too many. -/
theorem noteLoop_takes (d : Int) (target : Nat) : ∀ (L : List Nat) (s s' : VM) (counter : Nat), VInv e s →
    (∀ i ∈ L, (s.voices i).layer ≠ none) → noteLoop s d target L counter = some s' →
    OffVM s s' ∧ (∀ i ∈ L.take (counter - target), ¬ Sounds s' i) ∧
      (counter ≤ target → s' = s) ∧
      ∀ j, Sounds s j → ¬ Sounds s' j → ∃ i ∈ L.take (counter - target), Sister s i j := by
  intro L
  induction L with
  | nil =>
    intro s s' c _ _ h
    cases h
    exact ⟨OffVM.refl s, by simp, fun _ => rfl, fun j a b => absurd a b⟩
  | cons i tl ih =>
    intro s s' c h hm hr
    unfold noteLoop at hr
    split at hr
    · rename_i hc
      have ht : (i :: tl).take (c - target) = i :: tl.take (c - 1 - target) := by
        have : c - target = (c - 1 - target) + 1 := by omega
        rw [this, List.take_succ_cons]
      rw [ht]
      by_cases ho : offedOrFree s i = true
      · simp only [ho, if_true, Option.bind_eq_bind, Option.bind_some] at hr
        obtain ⟨k1, k2, _, k4⟩ := ih s s' (c - 1) h (fun j hj => hm j (by simp [hj])) hr
        refine ⟨k1, ?_, fun hh => by omega, ?_⟩
        · intro j hj
          rcases List.mem_cons.mp hj with rfl | hj
          · intro hs; have := k1.sounds hs; rw [Sounds, ho] at this; cases this
          · exact k2 j hj
        · intro j a b
          obtain ⟨x, hx, hx'⟩ := k4 j a b
          exact ⟨x, List.mem_cons_of_mem _ hx, hx'⟩
      · obtain ⟨s1, h1, h2, h3⟩ := offAllSisters_off h (some i) d (by intro j hj; cases hj; exact hm i (by simp))
        have ho' : offedOrFree s i = false := by simpa using ho
        simp only [ho', Bool.false_eq_true, if_false, h1, Option.bind_eq_bind, Option.bind_some] at hr
        obtain ⟨k1, k2, _, k4⟩ := ih s1 s' (c - 1) (h.soft h2.soft) (by
          intro j hj; rw [(h2.soft.voices j).layer]; exact hm j (by simp [hj])) hr
        refine ⟨h2.trans k1, ?_, fun hh => by omega, ?_⟩
        · intro j hj
          rcases List.mem_cons.mp hj with rfl | hj
          · exact fun hs => h3 j rfl (k1.sounds hs)
          · exact k2 j hj
        · intro j a b
          by_cases hsis : Sister s i j
          · exact ⟨i, by simp, hsis⟩
          · have hv := offAllSisters_only h (hm i (by simp)) h1 j hsis
            have a1 : Sounds s1 j := by rw [sounds_iff] at a ⊢; rw [hv]; exact a
            obtain ⟨x, hx, n, hx'⟩ := k4 j a1 b
            exact ⟨x, List.mem_cons_of_mem _ hx, n, by rw [← h2.soft.links.next]; exact hx'⟩
    · rename_i hc
      cases hr
      have : c - target = 0 := by omega
      rw [this]
      exact ⟨OffVM.refl s, by simp, fun _ => rfl, fun j a b => absurd a b⟩

/-- The sorted list is in the order of stopping. -/
theorem noteOrder_sorted (s : VM) (mask : Bool) (l : List Nat) : (noteOrder s mask l).Pairwise (fun a b => ¬ Before s mask b a) := by
  unfold noteOrder Before
  cases mask
  · simp only [Bool.false_eq_true, if_false]
    haveI : Std.Total (fun a b : Nat => (s.voices a).age ≥ (s.voices b).age) := ⟨fun a b => by omega⟩
    haveI : IsTrans Nat (fun a b : Nat => (s.voices a).age ≥ (s.voices b).age) := ⟨fun a b c => by omega⟩
    exact (List.pairwise_insertionSort _ l).imp (fun hab => not_lt.mpr hab)
  · simp only [if_true]
    haveI : Std.Total (fun a b : Nat => (s.voices a).trig.value ≤ (s.voices b).trig.value) := ⟨fun a b => le_total _ _⟩
    haveI : IsTrans Nat (fun a b : Nat => (s.voices a).trig.value ≤ (s.voices b).trig.value) := ⟨fun a b c => le_trans⟩
    exact (List.pairwise_insertionSort _ l).imp (fun hab => not_lt.mpr hab)

/-- In a list in order, what goes before an element taken is taken. -/
theorem before_taken {α : Type*} {R : α → α → Prop} {L : List α} (h : L.Pairwise (fun a b => ¬ R b a)) {k : Nat} {a c : α}
    (hc : c ∈ L.take k) (ha : a ∈ L) (hR : R a c) : a ∈ L.take k := by
  by_contra hn
  rw [← List.take_append_drop k L] at ha h
  rcases List.mem_append.mp ha with ha | ha
  · exact hn ha
  · exact (List.pairwise_append.mp h).2.2 c hc a ha hR

/-! ### The check -/

/-- What `checkNotePolyphony` does, in terms of the voices of the note. -/
structure NoteRoom (e : Env) (s s' : VM) (r : Region) (np : Nat) (t : Trig) : Prop where
  /-- There is room for one more, or those left are louder than the new one and `note_selfmask` spares them. -/
  room : (ofNote e s' r.group t.number).card < np ∨
    (r.selfMask = true ∧ ∀ i ∈ ofNote e s' r.group t.number, (s.voices i).trig.value > t.value)
  /-- With room before, nothing changes. -/
  idle : (ofNote e s r.group t.number).card < np → s' = s
  /-- A voice stops only as a sister of a voice of the note, not louder than the new one under `note_selfmask`, when all those that
  go before that voice have stopped too. -/
  only : ∀ j, Sounds s j → ¬ Sounds s' j → ∃ i ∈ ofNote e s r.group t.number, Sister s i j ∧ ¬ Sounds s' i ∧
    (r.selfMask = true → (s.voices i).trig.value ≤ t.value) ∧
    ∀ a ∈ ofNote e s r.group t.number, Before s r.selfMask a i → ¬ Sounds s' a

theorem checkNotePolyphony_room {s s' : VM} (h : VInv e s) (r : Region) (d : Int) (t : Trig) {np : Nat} (hp : r.notePolyphony = some np) (h1 : 1 ≤ np)
    (hr : checkNotePolyphony e s r d t = some s') : OffVM s s' ∧ NoteRoom e s s' r np t := by
  unfold checkNotePolyphony at hr
  rw [hp] at hr
  simp only [if_neg (show ¬ np = 0 by omega)] at hr
  generalize hC : noteVoices e s r t.number = C at hr
  have hCm : ∀ i, i ∈ C ↔ OfNote e s r.group t.number i := fun i => by rw [← hC]; exact mem_noteVoices h r t.number i
  have hCc : C.length = (ofNote e s r.group t.number).card := by rw [← hC]; exact noteVoices_card h r t.number
  have hCn : C.Nodup := by rw [← hC]; exact noteVoices_nodup h r t.number
  generalize hT : C.filter (fun i => !r.selfMask || decide ((s.voices i).trig.value ≤ t.value)) = T at hr
  have hTm : ∀ i, i ∈ T ↔ OfNote e s r.group t.number i ∧ (r.selfMask = true → (s.voices i).trig.value ≤ t.value) := by
    intro i
    rw [← hT, List.mem_filter, hCm]
    cases r.selfMask <;> simp
  have hTl : r.selfMask = false → T = C := by intro hm; rw [← hT, hm]; simp
  generalize hL : noteOrder s r.selfMask T = L at hr
  have hLp : L.Perm T := by rw [← hL]; exact noteOrder_perm _ _ _
  have hLs : L.Pairwise (fun a b => ¬ Before s r.selfMask b a) := by rw [← hL]; exact noteOrder_sorted _ _ _
  obtain ⟨k1, k2, k3, k4⟩ := noteLoop_takes (e := e) d (np - 1) L s s' C.length h (by
    intro i hi
    obtain ⟨⟨_, _, _, l, hl, _⟩, _⟩ := (hTm i).mp (hLp.mem_iff.mp hi)
    rw [hl]; simp) hr
  have h' := h.soft k1.soft
  refine ⟨k1, ?_, ?_, ?_⟩
  · by_cases hk : C.length - (np - 1) ≤ L.length
    · left
      have hsub : ofNote e s' r.group t.number ⊆ ofNote e s r.group t.number \ (L.take (C.length - (np - 1))).toFinset := by
        intro i hi
        rw [Finset.mem_sdiff]
        refine ⟨k1.note_subset _ _ hi, ?_⟩
        intro hm
        have hi' := (mem_ofNote h' _ _ _).mp hi
        exact k2 i (List.mem_toFinset.mp hm) ((sounds_iff s' i).mpr ⟨hi'.1, hi'.2.1⟩)
      have hnd : (L.take (C.length - (np - 1))).Nodup := by
        refine List.Nodup.sublist (List.take_sublist _ _) (hLp.nodup_iff.mpr ?_)
        rw [← hT]; exact hCn.filter _
      have hsub2 : (L.take (C.length - (np - 1))).toFinset ⊆ ofNote e s r.group t.number := by
        intro i hi
        rw [mem_ofNote h]
        exact ((hTm i).mp (hLp.mem_iff.mp (List.mem_of_mem_take (List.mem_toFinset.mp hi)))).1
      have := Finset.card_le_card hsub
      rw [Finset.card_sdiff_of_subset hsub2, List.toFinset_card_of_nodup hnd, List.length_take, ← hCc] at this
      omega
    · right
      have hmask : r.selfMask = true := by
        by_contra hm
        have := hTl (by simpa using hm)
        rw [hLp.length_eq, this] at hk
        omega
      refine ⟨hmask, ?_⟩
      intro i hi
      by_contra hv
      have hi' := (mem_ofNote h' _ _ _).mp hi
      have hiT : i ∈ L := hLp.mem_iff.mpr ((hTm i).mpr ⟨k1.keepsNote hi', fun _ => not_lt.mp hv⟩)
      refine k2 i ?_ ((sounds_iff s' i).mpr ⟨hi'.1, hi'.2.1⟩)
      rw [List.take_of_length_le (by omega)]
      exact hiT
  · intro hc
    exact k3 (by omega)
  · intro j hj hj'
    obtain ⟨i, hi, hs⟩ := k4 j hj hj'
    have hi' := (hTm i).mp (hLp.mem_iff.mp (List.mem_of_mem_take hi))
    refine ⟨i, (mem_ofNote h _ _ _).mpr hi'.1, hs, k2 i hi, hi'.2, ?_⟩
    intro a ha hab
    have ha' := (mem_ofNote h _ _ _).mp ha
    have haL : a ∈ L := by
      refine hLp.mem_iff.mpr ((hTm a).mpr ⟨ha', fun hm => ?_⟩)
      unfold Before at hab
      rw [hm, if_pos rfl] at hab
      exact le_trans (le_of_lt hab) (hi'.2 hm)
    exact k2 a (before_taken hLs hi haL hab)

/-! ### A start -/

/-- The other checks only choke voices. -/
theorem otherChecks_off {s s' : VM} (h : VInv e s) (hl : LimitsOk e s) (l : Nat) (d : Int)
    (hr : (do let s ← checkRegionPolyphony e s l d; let s ← checkGroupPolyphony e s l d; let s ← checkSetPolyphony e s l d; checkEnginePolyphony e s d) = some s') :
    OffVM s s' := by
  unfold checkRegionPolyphony checkGroupPolyphony checkSetPolyphony checkEnginePolyphony at hr
  obtain ⟨s2, a2, b2, _⟩ := limitVoices_ok h (s.active.filter (fun i => decide ((s.voices i).layer = some l))) (e.regions l).polyphony d
    (fun x => (hl x).2.2.2 l) (fun i hi => h.active_layer (List.mem_filter.mp hi).1)
  have h2 := h.soft b2.soft
  obtain ⟨s3, a3, b3, _⟩ := limitVoices_ok h2 (s2.groups (e.regions l).group).voices
    (s2.groups (e.regions l).group).limit d (fun x => by rw [b2.soft.links.groups]; exact (hl x).2.1 _) (by
      intro i hi; obtain ⟨l', hl', _⟩ := (h2.grp _ i).mp hi; rw [hl'.1]; simp)
  have h3 := h2.soft b3.soft
  have b03 := b2.trans b3
  obtain ⟨s4, a4, b4, _⟩ := setChecks_ok d (e.regions l).ancestors s3 h3 (fun x => by
    rw [b03.soft.links.setLimits]; exact (hl x).2.2.1)
  have h4 := h3.soft b4.soft
  have b04 := b03.trans b4
  obtain ⟨s5, a5, b5, _⟩ := limitVoices_ok h4 s4.active s4.required d (fun x => by
    rw [b04.soft.links.required]; exact (hl x).1) (fun i hi => h4.active_layer hi)
  simp only [a2, a3, a4, a5, Option.bind_eq_bind, Option.bind_some, Option.some.injEq] at hr
  rw [← hr]
  exact b04.trans b5

/-- What a start leaves: the checks choke voices, the one taken did not sound. -/
theorem startVoice_from {s s' : VM} (h : VInv e s) (m : Midi.State) (l : Nat) (d : Int) (t : Trig) (head head' : Option Nat)
    (hh : ∀ a, head = some a → (s.voices a).layer ≠ none) (hl : LimitsOk e s)
    (hr : startVoice e s m l d t head = some (s', head')) :
    ∃ s1, checkPolyphony e s l d t = some s1 ∧ OffVM s s1 ∧ VInv e s' ∧ s'.size = s.size ∧
      (s' = s1 ∨ ∃ i, ¬ Sounds s1 i ∧ ∀ j, j ≠ i → s'.voices j = s1.voices j) := by
  obtain ⟨s1, a1, b1, _⟩ := checkPolyphony_ok h hl l d t
  obtain ⟨s'', _, q1, q2, _⟩ := startVoice_ok h hl m l d t head hh
  rw [hr] at q1; cases q1
  refine ⟨s1, a1, b1, q2.inv, q2.size, ?_⟩
  unfold startVoice at hr
  rw [a1] at hr
  simp only [Option.bind_eq_bind, Option.bind_some] at hr
  cases hf : findFreeVoice s1 with
  | none => rw [hf] at hr; cases hr; exact Or.inl rfl
  | some i =>
    rw [hf] at hr
    obtain ⟨hi1, hi2⟩ := findFreeVoice_ok s1 i hf
    have h1 := h.soft b1.soft
    obtain ⟨s2, a2, h2, v2, sz2, _⟩ := reset_ok e h1 i
    have hl2 : (s2.voices i).layer = none := by rw [v2, upd_same]; rfl
    obtain ⟨s3, ok, a3, h3, st3, n3, p3⟩ := voiceStart_ok h2 m i l d t hl2 (by rw [sz2]; exact hi1)
    simp only [a2, a3, Option.bind_some] at hr
    right
    refine ⟨i, hi2, ?_⟩
    intro j hj
    cases ok with
    | false => cases hr; rw [st3.other j hj, v2, upd_other _ hj]
    | true =>
      simp only [if_true] at hr
      injection hr with hr
      have : s' = (addToRing s3 head i).1 := (congrArg Prod.fst hr).symm
      rw [this]
      show s3.voices j = _
      rw [st3.other j hj, v2, upd_other _ hj]

/-- `note_polyphony`: after a start of a region limited to `np` voices per note, at most `np` voices of its group sound for the note;
with `note_selfmask` there can be more, but then all but the new one are louder than it. -/
theorem note_polyphony_start {s s' : VM} (h : VInv e s) (hl : LimitsOk e s) (m : Midi.State) (l : Nat) (d : Int) (t : Trig) (head head' : Option Nat)
    (hh : ∀ a, head = some a → (s.voices a).layer ≠ none) {np : Nat} (hp : (e.regions l).notePolyphony = some np) (h1 : 1 ≤ np)
    (hr : startVoice e s m l d t head = some (s', head')) :
    (ofNote e s' (e.regions l).group t.number).card ≤ np ∨
      ((e.regions l).selfMask = true ∧ ∃ i, ∀ j ∈ ofNote e s' (e.regions l).group t.number, j ≠ i → (s'.voices j).trig.value > t.value) := by
  obtain ⟨s1, c1, c2, c3, c4, c5⟩ := startVoice_from h m l d t head head' hh hl hr
  unfold checkPolyphony at c1
  rw [Option.bind_eq_bind, Option.bind_eq_some_iff] at c1
  obtain ⟨s0, c1, c1'⟩ := c1
  obtain ⟨n1, n2⟩ := checkNotePolyphony_room h (e.regions l) d t hp h1 c1
  have n3 := otherChecks_off (h.soft n1.soft) (hl.soft n1.soft) l d c1'
  have hi1 := (h.soft n1.soft).soft n3.soft
  -- the voices of the note after the start, apart from the new one, sounded after the checks
  have key : ∃ i, ∀ j ∈ ofNote e s' (e.regions l).group t.number, j ≠ i → j ∈ ofNote e s0 (e.regions l).group t.number ∧ s'.voices j = s.voices j := by
    have base : ∀ j, OfNote e s1 (e.regions l).group t.number j → j ∈ ofNote e s0 (e.regions l).group t.number ∧ s1.voices j = s.voices j := by
      intro j hj
      exact ⟨(mem_ofNote (h.soft n1.soft) _ _ _).mpr (n3.keepsNote hj), c2.same j hj.2.1⟩
    rcases c5 with rfl | ⟨i, _, hi⟩
    · refine ⟨s'.size, fun j hj _ => base j ((mem_ofNote c3 _ _ _).mp hj)⟩
    · refine ⟨i, fun j hj hne => ?_⟩
      have hj' := (mem_ofNote c3 _ _ _).mp hj
      have hv := hi j hne
      have : OfNote e s1 (e.regions l).group t.number j := by
        obtain ⟨a, b, c, d⟩ := hj'
        rw [hv] at a b c d
        exact ⟨a, b, c, d⟩
      rw [hv]
      exact base j this
  obtain ⟨i, hi⟩ := key
  rcases n2.room with hroom | ⟨hm, hroom⟩
  · left
    have hsub : ofNote e s' (e.regions l).group t.number ⊆ insert i (ofNote e s0 (e.regions l).group t.number) := by
      intro j hj
      rw [Finset.mem_insert]
      by_cases hji : j = i
      · exact Or.inl hji
      · exact Or.inr (hi j hj hji).1
    have := Finset.card_le_card hsub
    have := Finset.card_insert_le i (ofNote e s0 (e.regions l).group t.number)
    omega
  · right
    refine ⟨hm, i, fun j hj hji => ?_⟩
    obtain ⟨q1, q2⟩ := hi j hj hji
    rw [q2]
    exact hroom j q1

/-- The same after every history of calls, for the start of any layer by any event. -/
theorem note_polyphony {c : Cfg} (m : Midi.State) (sw : Option Int) (n : Nat) (gl sl : Nat → Nat) (ops : List Op) (s : E)
    (h : Sane c n gl sl ops) (hr : run c (load c m sw n gl sl) ops = some s) (l : Nat) (d : Int) (t : Trig) {np : Nat}
    (hp : (c.regions l).notePolyphony = some np) (h1 : 1 ≤ np) :
    ∃ s' head, startVoice c.toEnv s.vm s.midi l d t none = some (s', head) ∧
      ((ofNote c.toEnv s' (c.regions l).group t.number).card ≤ np ∨
        ((c.regions l).selfMask = true ∧
          ∃ i, ∀ j ∈ ofNote c.toEnv s' (c.regions l).group t.number, j ≠ i → (s'.voices j).trig.value > t.value)) := by
  obtain ⟨s', k1, k2, k3, _⟩ := reachable_ok m sw n gl sl ops h
  rw [hr] at k1; cases k1
  obtain ⟨s1, head, q1, _⟩ := startVoice_ok k2 k3 s.midi l d t none (by simp)
  exact ⟨s1, head, q1, note_polyphony_start k2 k3 s.midi l d t none head (by simp) hp h1 q1⟩

/-- And the check made at that start: what stops, and what is left alone. -/
theorem note_polyphony_choice {c : Cfg} (m : Midi.State) (sw : Option Int) (n : Nat) (gl sl : Nat → Nat) (ops : List Op) (s : E)
    (h : Sane c n gl sl ops) (hr : run c (load c m sw n gl sl) ops = some s) (l : Nat) (d : Int) (t : Trig) {np : Nat}
    (hp : (c.regions l).notePolyphony = some np) (h1 : 1 ≤ np) :
    ∃ s', checkNotePolyphony c.toEnv s.vm (c.regions l) d t = some s' ∧ NoteRoom c.toEnv s.vm s' (c.regions l) np t := by
  obtain ⟨s', k1, k2, _⟩ := reachable_ok m sw n gl sl ops h
  rw [hr] at k1; cases k1
  obtain ⟨s1, q1, _⟩ := checkNotePolyphony_ok k2 (c.regions l) d t
  exact ⟨s1, q1, (checkNotePolyphony_room k2 _ d t hp h1 q1).2⟩

/-- Two voices per note: of three equal notes, the oldest has stopped. -/
example :
    let c := demo [{ notePolyphony := some 2 }]
    ((run c (demoLoad c 8 8) [.noteOn 0 60 1, .render 64 (fun _ => ⟨none, false, false, 0⟩), .noteOn 0 60 1, .render 64 (fun _ => ⟨none, false, false, 0⟩), .noteOn 0 60 1, .noteOn 0 62 1]).map soundingVoices) =
      some [1, 2, 3] := by decide +kernel

/-- With `note_selfmask`, a softer note does not stop a louder one, so both sound though the limit is one. -/
example :
    let c := demo [{ notePolyphony := some 1, selfMask := true }]
    ((run c (demoLoad c 8 8) [.noteOn 0 60 1, .noteOn 0 60 (1 / 2)]).map soundingVoices) = some [0, 1] := by decide +kernel

/-- Without, it does. -/
example :
    let c := demo [{ notePolyphony := some 1, selfMask := false }]
    ((run c (demoLoad c 8 8) [.noteOn 0 60 1, .noteOn 0 60 (1 / 2)]).map soundingVoices) = some [1] := by decide +kernel

/-! ### The stealers -/

/-- The voice stolen by each policy: the first, or an oldest one (the first of them), of those that sound. -/
theorem stolen_voice {s : VM} {playing : List Nat} {limit : Nat} (hp : limit ≤ playing.length) :
    (e.stealer = .first → pick e s playing limit = some playing.head?) ∧
      (e.stealer = .oldest → ∀ i, pick e s playing limit = some (some i) →
        ∃ A B, playing = A ++ i :: B ∧ (∀ a ∈ A, (s.voices a).age < (s.voices i).age) ∧ ∀ b ∈ B, (s.voices b).age ≤ (s.voices i).age) := by
  refine ⟨fun hs => ?_, fun hs i hi => ?_⟩
  · unfold pick; rw [if_pos hp, hs]
  · unfold pick at hi
    rw [if_pos hp, hs] at hi
    simp only [Option.some.injEq] at hi
    cases playing with
    | nil => cases hi
    | cons x tl =>
      have key : ∀ (tl A B : List Nat) (x : Nat), (∀ a ∈ A, (s.voices a).age < (s.voices x).age) → (∀ b ∈ B, (s.voices b).age ≤ (s.voices x).age) →
          ∀ i, tl.foldl (fun c v => if (s.voices v).age > (s.voices c).age then v else c) x = i →
          ∃ A' B', A ++ x :: (B ++ tl) = A' ++ i :: B' ∧ (∀ a ∈ A', (s.voices a).age < (s.voices i).age) ∧ ∀ b ∈ B', (s.voices b).age ≤ (s.voices i).age := by
        intro tl
        induction tl with
        | nil => intro A B x hA hB i hi; simp only [List.foldl_nil] at hi; subst hi; exact ⟨A, B, by simp, hA, hB⟩
        | cons y tl ih =>
          intro A B x hA hB i hi
          rw [List.foldl_cons] at hi
          split at hi
          · rename_i hy
            obtain ⟨A', B', q1, q2, q3⟩ := ih (A ++ x :: B) [] y (by
              intro a ha
              rcases List.mem_append.mp ha with ha | ha
              · exact lt_trans (hA a ha) hy
              · rcases List.mem_cons.mp ha with rfl | ha
                · exact hy
                · exact lt_of_le_of_lt (hB a ha) hy) (by simp) i hi
            exact ⟨A', B', by rw [← q1]; simp, q2, q3⟩
          · rename_i hy
            obtain ⟨A', B', q1, q2, q3⟩ := ih A (B ++ [y]) x hA (by
              intro b hb
              rcases List.mem_append.mp hb with hb | hb
              · exact hB b hb
              · simp only [List.mem_singleton] at hb; subst hb; exact not_lt.mp hy) i hi
            exact ⟨A', B', by rw [← q1]; simp, q2, q3⟩
      obtain ⟨A', B', q1, q2, q3⟩ := key tl [] [] x (by simp) (by simp) i (Option.some.inj hi)
      exact ⟨A', B', by simpa using q1, q2, q3⟩

/-- Nothing is stolen below the limit. -/
theorem nothing_stolen {s : VM} {playing : List Nat} {limit : Nat} (hp : playing.length < limit) : pick e s playing limit = some none := by
  unfold pick; rw [if_neg (by omega)]

/-! ### The event a voice remembers -/

/-- A voice keeps the note or the key of its region if started by a controller, and the velocity, which is that of the previous note if the
region asks for it. -/
theorem voice_event (m : Midi.State) (l : Nat) (t : Trig) (v : Voice) :
    (armed e m l t v).trig.type = t.type ∧
      (t.type ≠ .cc → (armed e m l t v).trig.number = t.number) ∧
      (t.type = .cc → (armed e m l t v).trig.number = (e.regions l).pitchKeycenter) ∧
      ((e.regions l).velocityPrevious = false → (armed e m l t v).trig.value = t.value) ∧
      ((e.regions l).velocityPrevious = true → (armed e m l t v).trig.value = m.velocityOverride) := by
  unfold armed
  refine ⟨rfl, fun h => by simp [h], fun h => by simp [h], fun h => by simp [h], fun h => by simp [h]⟩

end Verif.Engine
