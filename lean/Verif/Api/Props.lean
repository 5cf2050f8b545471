import Verif.Api.Model

/-! Properties of the C interface: reference counts (C111), the list of unknown opcodes (C112), labels (C113). -/
namespace Verif.Api

/-! ### C111: reference counts -/

/-- What the threads of a program do with an engine, step by step and in any interleaving. `share a b`: `a` takes a reference for `b`.
`finish`: a thread that found it was the last deletes the object. -/
inductive Event where
  | share (a b : Nat)
  | drop (a : Nat)
  | touch (a : Nat)
  | finish
  deriving DecidableEq, Repr

/-- Who holds a reference: the thread that created the engine, at first. -/
def holdersAfter : List Nat → Event → List Nat
  | hs, .share _ b => b :: hs
  | hs, .drop a => hs.erase a
  | hs, .touch _ => hs
  | hs, .finish => hs

/-- The rules for the caller: only holders act, and there are fewer than 2^64 references. Whether a thread may delete is up to the library. -/
def Allowed (hs : List Nat) : Event → Prop
  | .share a _ => a ∈ hs ∧ hs.length + 1 < 2 ^ 64
  | .drop a => a ∈ hs
  | .touch a => a ∈ hs
  | .finish => True

def doEvent (h : Handle) : Event → Option Handle
  | .share _ _ => addRef h
  | .drop _ => free h
  | .touch _ => use h
  | .finish => if h.deleting = 0 then some h else destroy h

/-- A program that follows the rules, up to some point: the engine (`none` after undefined behaviour) and the holders. -/
inductive Program : List Event → Option Handle → List Nat → Prop
  | start : Program [] (some create) [0]
  | step {es h hs} (e : Event) : Program es h hs → Allowed hs e → Program (es ++ [e]) (h.bind (doEvent · e)) (holdersAfter hs e)

theorem program_inv {es : List Event} {h : Option Handle} {hs : List Nat} (p : Program es h hs) :
    ∃ g, h = some g ∧ g.rc = hs.length ∧ hs.length < 2 ^ 64 ∧ g.deleting + g.deleted = if hs = [] then 1 else 0 := by
  induction p with
  | start => exact ⟨create, rfl, rfl, by decide, rfl⟩
  | @step es h hs e p ha ih =>
    obtain ⟨g, rfl, hr, hl, hd⟩ := ih
    have alive : ∀ a, a ∈ hs → hs ≠ [] ∧ g.deleted = 0 ∧ g.deleting = 0 := by
      intro a h
      have hn : hs ≠ [] := List.ne_nil_of_mem h
      rw [if_neg hn] at hd
      exact ⟨hn, by omega, by omega⟩
    cases e with
    | share a b =>
      obtain ⟨hn, h1, h2⟩ := alive a ha.1
      refine ⟨{ g with rc := (g.rc + 1) % 2 ^ 64 }, by simp [doEvent, addRef, h1], ?_, ?_, ?_⟩
      · simp only [holdersAfter, List.length_cons, hr]
        exact Nat.mod_eq_of_lt ha.2
      · simpa [holdersAfter] using ha.2
      · simp [holdersAfter, h1, h2]
    | drop a =>
      obtain ⟨hn, h1, h2⟩ := alive a ha
      have hpos : 0 < hs.length := List.length_pos_iff.mpr hn
      have he : (hs.erase a).length = hs.length - 1 := List.length_erase_of_mem ha
      refine ⟨_, (if_pos h1 : free g = some _), ?_, ?_, ?_⟩
      · simp only [holdersAfter, he, hr]
        have : hs.length + 2 ^ 64 - 1 = (hs.length - 1) + 2 ^ 64 := by omega
        rw [this, Nat.add_mod_right]
        exact Nat.mod_eq_of_lt (by omega)
      · simp only [holdersAfter, he]; omega
      · simp only [holdersAfter, h1, h2, hr]
        by_cases h1' : hs.length = 1
        · have hc : hs.erase a = [] := List.length_eq_zero_iff.mp (by rw [he]; omega)
          simp [h1', hc]
        · have hc : hs.erase a ≠ [] := fun hc => by rw [hc] at he; simp at he; omega
          simp [h1', hc]
    | touch a =>
      obtain ⟨hn, h1, h2⟩ := alive a ha
      exact ⟨g, by simp [doEvent, use, h1], hr, hl, hd⟩
    | finish =>
      by_cases h0 : g.deleting = 0
      · exact ⟨g, by simp [doEvent, h0], hr, hl, hd⟩
      · have hn : hs = [] := by
          by_contra hc
          rw [if_neg hc] at hd
          omega
        rw [if_pos hn] at hd
        refine ⟨{ g with deleting := g.deleting - 1, deleted := 1 }, by simp [doEvent, h0, destroy, show g.deleted = 0 by omega], hr, hl, ?_⟩
        show g.deleting - 1 + 1 = if hs = [] then 1 else 0
        rw [if_pos hn]
        omega

/-- **C111.** In every program whose threads only use an engine while they hold a reference, in every interleaving, no step touches a deleted
engine; the engine is not deleted while a reference is held. -/
theorem held_alive (es : List Event) (h : Option Handle) (hs : List Nat) (p : Program es h hs) :
    ∃ g, h = some g ∧ (hs ≠ [] → g.deleted = 0 ∧ g.deleting = 0) := by
  obtain ⟨g, rfl, _, _, hd⟩ := program_inv p
  refine ⟨g, rfl, fun hn => ?_⟩
  rw [if_neg hn] at hd
  omega

/-- **C111.** Once the last reference is dropped, exactly one thread deletes the engine, and then it is deleted exactly once, whatever follows. -/
theorem freed_once (es : List Event) (h : Option Handle) (p : Program es h []) :
    ∃ g, h = some g ∧ ((g.deleting = 1 ∧ g.deleted = 0) ∨ (g.deleting = 0 ∧ g.deleted = 1)) ∧
      ∀ g', h.bind (doEvent · .finish) = some g' → g'.deleted = 1 ∧ g'.deleting = 0 := by
  obtain ⟨g, rfl, _, _, hd⟩ := program_inv p
  rw [if_pos rfl] at hd
  refine ⟨g, rfl, by omega, ?_⟩
  intro g' hg
  simp only [Option.bind_some, doEvent] at hg
  split at hg
  · injection hg with hg; subst hg; omega
  · rename_i h0
    rw [destroy, if_pos (by omega)] at hg
    injection hg with hg; subst hg
    exact ⟨rfl, by simp only; omega⟩

/-- Two holders that drop their references, and a third party that looks in between. -/
def sampleEvents : List Event := [.share 0 1, .touch 1, .drop 0, .touch 1, .drop 1, .finish]

theorem sampleProgram : Program sampleEvents (some ⟨0, 0, 1⟩) [] := by
  have p := ((((((Program.start.step (.share 0 1) ⟨by decide, by decide⟩).step (.touch 1) (by simp [Allowed, holdersAfter])).step (.drop 0)
    (by simp [Allowed, holdersAfter])).step (.touch 1) (by simp [Allowed, holdersAfter])).step (.drop 1) (by simp [Allowed, holdersAfter])).step .finish trivial)
  have e : (((((((some create).bind (doEvent · (.share 0 1))).bind (doEvent · (.touch 1))).bind (doEvent · (.drop 0))).bind (doEvent · (.touch 1))).bind
      (doEvent · (.drop 1))).bind (doEvent · .finish)) = some ⟨0, 0, 1⟩ := by decide
  rw [e] at p
  exact p

example : ∃ es h hs, Program es h hs ∧ es.length = 6 ∧ hs = [] := ⟨_, _, _, sampleProgram, rfl, rfl⟩

/-- Without the rule, a thread uses a deleted engine: the rule is needed. -/
theorem unheld_use : ((free create).bind destroy).bind use = none := by decide

/-! ### C112: the list of unknown opcodes -/

/-- The names with commas between them. -/
def joined : List Text → Text
  | [] => []
  | [n] => n
  | n :: m :: rest => n ++ ',' :: joined (m :: rest)

/-- Which names the list should have: those that were refused at their first appearance, in the order of these appearances. -/
def refusedFirst : List (Text × Bool) → List Text → List Text
  | [], _ => []
  | (n, ok) :: rest, before => if ok = false ∧ n ∉ before then n :: refusedFirst rest (n :: before) else refusedFirst rest before

theorem remember_fold : ∀ (os : List (Text × Bool)) (u : List Text), os.foldl remember u = u ++ refusedFirst os u := by
  have perm : ∀ (os : List (Text × Bool)) (a b : List Text), (∀ n, n ∈ a ↔ n ∈ b) → refusedFirst os a = refusedFirst os b := by
    intro os
    induction os with
    | nil => intro a b _; rfl
    | cons o os ih =>
      intro a b hab
      obtain ⟨n, ok⟩ := o
      simp only [refusedFirst, hab n]
      split
      · rw [ih (n :: a) (n :: b) (by simp [hab])]
      · rw [ih a b hab]
  intro os
  induction os with
  | nil => intro u; simp [refusedFirst]
  | cons o os ih =>
    intro u
    obtain ⟨n, ok⟩ := o
    simp only [List.foldl_cons, remember, refusedFirst]
    by_cases hm : n ∈ u
    · simp [hm, ih]
    · cases ok
      · simp only [hm, if_false, Bool.false_eq_true, not_false_eq_true, and_self, if_true]
        rw [ih, perm os (u ++ [n]) (n :: u) (by simp [or_comm])]
        simp
      · simp [hm, ih]

theorem remember_nodup : ∀ (os : List (Text × Bool)) (u : List Text), u.Nodup → (os.foldl remember u).Nodup := by
  intro os
  induction os with
  | nil => intro u h; exact h
  | cons o os ih =>
    intro u h
    refine ih _ ?_
    unfold remember
    split
    · exact h
    · split
      · exact h
      · rename_i hm _
        exact List.nodup_append.mpr ⟨h, by simp, by
          intro a ha b hb hc
          rw [List.mem_singleton.mp hb] at hc
          exact hm (hc ▸ ha)⟩

theorem writeNames_eq : ∀ (names : List Text) (last : Text) (out : Text), names ≠ [] → names.getLast? = some last → names.Nodup →
    writeNames last names out = out ++ joined names ++ ['\x00'] := by
  intro names
  induction names with
  | nil => intro last out h; exact absurd rfl h
  | cons n rest ih =>
    intro last out _ hl hn
    cases rest with
    | nil =>
      simp only [List.getLast?_singleton, Option.some.injEq] at hl
      subst hl
      simp [writeNames, joined]
    | cons m rest =>
      have hl' : (m :: rest).getLast? = some last := by simpa [List.getLast?_cons_cons] using hl
      have hne : n ≠ last := by
        rintro rfl
        exact (List.nodup_cons.mp hn).1 (List.mem_of_getLast? hl')
      rw [writeNames, if_neg hne, ih last _ (by simp) hl' (List.nodup_cons.mp hn).2]
      simp [joined]

theorem joined_length : ∀ names : List Text, names ≠ [] → (joined names).length + 1 = totalLength names := by
  intro names
  induction names with
  | nil => intro h; exact absurd rfl h
  | cons n rest ih =>
    intro _
    cases rest with
    | nil => simp [joined, totalLength]
    | cons m rest =>
      have := ih (by simp)
      simp only [joined, List.length_append, List.length_cons]
      simp only [totalLength, List.map_cons, List.sum_cons] at this ⊢
      omega

theorem cString_append : ∀ (t rest : Text), '\x00' ∉ t → cString (t ++ '\x00' :: rest) = some t := by
  intro t
  induction t with
  | nil => intro rest _; simp [cString]
  | cons c t ih =>
    intro rest h
    simp only [List.mem_cons, not_or] at h
    simp [cString, Ne.symm h.1, ih rest h.2]

theorem mem_joined : ∀ {names : List Text} {c : Char}, c ∈ joined names → c = ',' ∨ ∃ n ∈ names, c ∈ n := by
  intro names
  induction names with
  | nil => intro c h; simp [joined] at h
  | cons n rest ih =>
    intro c h
    cases rest with
    | nil => exact Or.inr ⟨n, by simp, by simpa [joined] using h⟩
    | cons m rest =>
      simp only [joined, List.mem_append, List.mem_cons] at h
      rcases h with h | rfl | h
      · exact Or.inr ⟨n, by simp, h⟩
      · exact Or.inl rfl
      · rcases ih h with h | ⟨k, hk, hc⟩
        · exact Or.inl h
        · exact Or.inr ⟨k, List.mem_cons_of_mem _ hk, hc⟩

/-- **C112.** After any instrument, the list of unknown opcodes is the null pointer when no opcode was refused; otherwise every byte that was
allocated is written and none beyond, and a C program reads the names that were refused, in the order of their first appearance, each once, with
commas between them. -/
theorem unknown_list (os : List (Text × Bool)) (hz : ∀ o ∈ os, '\x00' ∉ o.1) :
    (refusedFirst os [] = [] → unknownOpcodes (unknownAfter os) = none) ∧
    (refusedFirst os [] ≠ [] → ∃ size bytes, unknownOpcodes (unknownAfter os) = some (size, bytes) ∧ bytes.length = size ∧
      cString bytes = some (joined (refusedFirst os []))) ∧
    (refusedFirst os []).Nodup := by
  have hu : unknownAfter os = refusedFirst os [] := by simpa [unknownAfter] using remember_fold os []
  have hnd : (refusedFirst os []).Nodup := by
    rw [← hu]; exact remember_nodup os [] List.nodup_nil
  refine ⟨?_, ?_, hnd⟩
  · intro h
    rw [hu, h]; rfl
  · intro h
    have hlen := joined_length _ h
    obtain ⟨last, hl⟩ : ∃ last, (refusedFirst os []).getLast? = some last := by
      rw [List.getLast?_eq_some_getLast h]; exact ⟨_, rfl⟩
    have hw := writeNames_eq _ last [] h hl hnd
    rw [hu]
    refine ⟨totalLength (refusedFirst os []), writeNames last (refusedFirst os []) [], ?_, ?_, ?_⟩
    · rw [unknownOpcodes, if_neg (by omega), hl]; rfl
    · rw [hw]; simp only [List.nil_append, List.length_append, List.length_singleton]; omega
    · rw [hw, List.nil_append]
      refine cString_append _ _ ?_
      intro hc
      rcases mem_joined hc with hc | ⟨n, hn, hc⟩
      · exact absurd hc (by decide)
      · have sub : ∀ (os : List (Text × Bool)) (b : List Text) (n : Text), n ∈ refusedFirst os b → ∃ o ∈ os, o.1 = n := by
          intro os
          induction os with
          | nil => intro b n h; simp [refusedFirst] at h
          | cons o os ih =>
            intro b n h
            obtain ⟨m, ok⟩ := o
            simp only [refusedFirst] at h
            split at h
            · rcases List.mem_cons.mp h with rfl | h
              · exact ⟨_, List.mem_cons_self, rfl⟩
              · obtain ⟨o, ho, e⟩ := ih _ _ h
                exact ⟨o, List.mem_cons_of_mem _ ho, e⟩
            · obtain ⟨o, ho, e⟩ := ih _ _ h
              exact ⟨o, List.mem_cons_of_mem _ ho, e⟩
        obtain ⟨o, ho, rfl⟩ := sub os [] n hn
        exact hz o ho hc

/-- Cutting a text at its commas. -/
def split : Text → List Text
  | [] => [[]]
  | c :: rest =>
    if c = ',' then [] :: split rest
    else
      match split rest with
      | [] => [[c]]
      | w :: ws => (c :: w) :: ws

theorem split_plain : ∀ n : Text, ',' ∉ n → split n = [n] := by
  intro n
  induction n with
  | nil => intro _; rfl
  | cons c n ih =>
    intro h
    simp only [List.mem_cons, not_or] at h
    simp [split, Ne.symm h.1, ih h.2]

theorem split_append : ∀ (n rest : Text), ',' ∉ n → split (n ++ ',' :: rest) = n :: split rest := by
  intro n
  induction n with
  | nil => intro rest _; simp [split]
  | cons c n ih =>
    intro rest h
    simp only [List.mem_cons, not_or] at h
    simp [split, Ne.symm h.1, ih rest h.2]

/-- **C112.** The names, which have no comma, can be read back from the list. -/
theorem names_recovered (names : List Text) (h : names ≠ []) (hc : ∀ n ∈ names, ',' ∉ n) : split (joined names) = names := by
  induction names with
  | nil => exact absurd rfl h
  | cons n rest ih =>
    cases rest with
    | nil => exact split_plain n (hc n (by simp))
    | cons m rest =>
      rw [joined, split_append _ _ (hc n (by simp)), ih (by simp) (fun k hk => hc k (List.mem_cons_of_mem _ hk))]

def sampleOps : List (Text × Bool) :=
  [("sample".toList, true), ("foo".toList, false), ("bar_oncc3".toList, false), ("foo".toList, false), ("key".toList, true)]

example : unknownOpcodes (unknownAfter sampleOps) = some (14, "foo,bar_oncc3\x00".toList) := by decide
example : refusedFirst sampleOps [] = ["foo".toList, "bar_oncc3".toList] ∧ ∀ o ∈ sampleOps, '\x00' ∉ o.1 := by decide

/-- The comparison with the last name is by value: with a name twice, the list would end early. -/
theorem duplicates_would_cut : ∃ names : List Text, ∃ size bytes, unknownOpcodes names = some (size, bytes) ∧ cString bytes ≠ some (joined names) :=
  ⟨["a".toList, "b".toList, "a".toList], 6, "a\x00b,a\x00".toList, by decide, by decide⟩

/-! ### C113: labels -/

/-- The labels of an engine: their texts are allocated, below the first free address. -/
def Sound (m : Memory) (labels : List Label) : Prop :=
  (∀ l ∈ labels, l.address < m.next) ∧ ∀ l ∈ labels, (m.at_ l.address).isSome

theorem copy_spec : ∀ (labels : List Label) (m : Memory), (∀ l ∈ labels, l.address < m.next) →
    let r := copyLabels m labels
    r.2.length = labels.length ∧ r.2.map Label.number = labels.map Label.number ∧ (∀ l ∈ r.2, m.next ≤ l.address) ∧
      (∀ a, a < m.next → r.1.at_ a = m.at_ a) ∧ m.next ≤ r.1.next := by
  intro labels
  induction labels with
  | nil => intro m _; simp [copyLabels]
  | cons l rest ih =>
    intro m h
    have h1 := ih (m.alloc ((m.at_ l.address).getD [])).1 (fun k hk => by
      have := h k (List.mem_cons_of_mem _ hk)
      simp only [Memory.alloc]; omega)
    simp only [copyLabels]
    obtain ⟨a1, a2, a3, a4, a5⟩ := h1
    simp only [Memory.alloc] at a3 a4 a5
    refine ⟨by simp [a1], by simp [a2], ?_, ?_, by simp only [Memory.alloc]; omega⟩
    · intro k hk
      rcases List.mem_cons.mp hk with rfl | hk
      · simp [Memory.alloc]
      · have := a3 k hk; omega
    · intro a ha
      rw [show (copyLabels (m.alloc ((m.at_ l.address).getD [])).1 rest).1.at_ a = _ from a4 a (by omega)]
      rw [if_neg (by omega)]

/-- **C113.** For every index, also negative ones, the getter of label numbers gives the number of that label, or −1 outside of the list; the
number of labels is that of the list. -/
theorem label_number (m : Memory) (labels : List Label) (h : Sound m labels) (i : Int) :
    (∀ n : Nat, i = n → ∀ l, labels[n]? = some l → labelNumber m labels i = l.number) ∧
    (i < 0 ∨ (numLabels labels : Int) ≤ i → labelNumber m labels i = -1) := by
  obtain ⟨a1, a2, _⟩ := copy_spec labels m h.1
  refine ⟨?_, ?_⟩
  · rintro n rfl l hl
    have : ((copyLabels m labels).2.map Label.number)[n]? = some l.number := by rw [a2, List.getElem?_map, hl]; rfl
    rw [List.getElem?_map] at this
    cases hc : (copyLabels m labels).2[n]? with
    | none => rw [hc] at this; simp at this
    | some k =>
      rw [hc] at this
      simp only [Option.map_some, Option.some.injEq] at this
      simp [labelNumber, hc, this, show ¬ (n : Int) < 0 by omega]
  · intro hi
    unfold labelNumber
    by_cases hneg : i < 0
    · simp [hneg, outOfBounds]
    · have : (copyLabels m labels).2[i.toNat]? = none := by
        rw [List.getElem?_eq_none_iff, a1]
        simp only [numLabels] at hi
        omega
      simp [hneg, this, outOfBounds]

/-- **C113.** Outside of the list, and only there, the getter of label texts gives the null pointer. -/
theorem label_text_null (m : Memory) (labels : List Label) (h : Sound m labels) (i : Int) :
    (labelText m labels i).2 = none ↔ (i < 0 ∨ (numLabels labels : Int) ≤ i) := by
  obtain ⟨a1, _⟩ := copy_spec labels m h.1
  unfold labelText
  by_cases hneg : i < 0
  · simp [hneg]
  · simp only [hneg, if_false, false_or, Option.map_eq_none_iff, List.getElem?_eq_none_iff, a1, numLabels]
    omega

/-- **C113 is violated.** For every label of every instrument, the pointer that the getter of label texts returns points to memory that is already
released: reading the text is undefined behaviour. -/
theorem label_text_violated (m : Memory) (labels : List Label) (_h : Sound m labels) (i p : _) (hp : (labelText m labels i).2 = some p) :
    (labelText m labels i).1.at_ p = none := by
  unfold labelText at hp ⊢
  split at hp
  · cases hp
  · rename_i hneg
    simp only [hneg, if_false] at hp ⊢
    obtain ⟨l, hl, rfl⟩ := Option.map_eq_some_iff.mp hp
    have : l.address ∈ (copyLabels m labels).2.map Label.address := List.mem_map.mpr ⟨l, List.mem_of_getElem? hl, rfl⟩
    simp only [Memory.release, if_pos this]

/-- **C113.** The labels of the engine survive the call; a getter that does not copy gives the text itself. -/
theorem label_text_repaired (m : Memory) (labels : List Label) (h : Sound m labels) (i : Int) :
    (∀ l ∈ labels, (labelText m labels i).1.at_ l.address = m.at_ l.address) ∧
    ∀ p, (labelTextByReference m labels i).2 = some p → ∃ l, labels[i.toNat]? = some l ∧ p = l.address ∧
      ((labelTextByReference m labels i).1.at_ p).isSome := by
  obtain ⟨_, _, a3, a4, _⟩ := copy_spec labels m h.1
  refine ⟨?_, ?_⟩
  · intro l hl
    have hlt := h.1 l hl
    have hnot : l.address ∉ (copyLabels m labels).2.map Label.address := by
      intro hc
      obtain ⟨k, hk, e⟩ := List.mem_map.mp hc
      have := a3 k hk
      omega
    unfold labelText
    split <;> simp only [Memory.release, hnot, if_false] <;> exact a4 _ hlt
  · intro p hp
    unfold labelTextByReference at hp ⊢
    split at hp
    · cases hp
    · rename_i hneg
      simp only [hneg, if_false] at hp ⊢
      obtain ⟨l, hl, rfl⟩ := Option.map_eq_some_iff.mp hp
      exact ⟨l, hl, rfl, h.2 l (List.mem_of_getElem? hl)⟩

def sampleMemory : Memory := ⟨fun a => if a = 0 then some "Kick".toList else if a = 1 then some "Snare".toList else none, 2⟩
def sampleLabels : List Label := [⟨36, 0⟩, ⟨38, 1⟩]

example : Sound sampleMemory sampleLabels := ⟨by decide, by decide⟩
example : (labelText sampleMemory sampleLabels 1).2 = some 3 ∧ (labelText sampleMemory sampleLabels 1).1.at_ 3 = none := by decide
example : labelNumber sampleMemory sampleLabels 1 = 38 ∧ labelNumber sampleMemory sampleLabels (-1) = -1 ∧ labelNumber sampleMemory sampleLabels 2 = -1 := by decide

end Verif.Api
