import Verif.Names.Reader
import Verif.BitArray.Props
import Mathlib.Data.List.Nodup
import Mathlib.Data.List.Range

/-!
# The document of names

C149: the document that the engine exports is well-formed XML, whatever characters the names have, and a reader finds in it each
controller and each key that has a name, with this name.
-/
namespace Verif.Names

/-! ### What a reader looks for -/

/-- The entries of a kind: the number and the name that the attributes give. -/
def entries (kind : Text) (items : List Item) : List (Nat × Text) :=
  items.filterMap (fun i => match i with
    | .empty n as =>
      if n = kind then
        match as.lookup wNumber, as.lookup wName with
        | some k, some v => some (Nat.ofDigitChars 10 k 0, v)
        | _, _ => none
      else none
    | _ => none)

/-- Names that can be told in XML at all: those made of characters that a document may contain. Numbers of controllers and keys, as loading
makes them: each controller has one name, and is one of the 512. `s` are the controllers in use. -/
structure Fine (e : Engine) (model : Text) (s : Nat → Bool) : Prop where
  controls : ∀ p ∈ e.controls, ∀ c ∈ p.2, legal c = true
  keys : ∀ p ∈ e.keys, ∀ c ∈ p.2, legal c = true
  switches : ∀ p ∈ e.switches, ∀ c ∈ p.2, legal c = true
  modelLegal : ∀ c ∈ model, legal c = true ∧ c ≠ '\r'
  modelBlank : model = [] ∨ ∃ c ∈ model, blank c = false
  once : (e.controls.map Prod.fst).Nodup
  below : ∀ p ∈ e.controls, p.1 < 512
  used : BitArray.Rep 512 e.used s

/-! ### Lemmas -/

theorem cstr_eq (s : Text) (h : ∀ c ∈ s, legal c = true) : cstr s = s := by
  refine (takeWhile_all _ s ?_).1
  intro c hc
  have := h c hc
  by_contra hn
  simp only [bne_iff_ne, ne_eq, Decidable.not_not] at hn
  subst hn
  exact absurd this (by decide)

theorem decimal_read (n : Nat) : Nat.ofDigitChars 10 (decimal n) 0 = n := by
  simp [decimal]

theorem decimal_legal (n : Nat) : ∀ c ∈ decimal n, legal c = true := by
  intro c hc
  have := Nat.isDigit_of_mem_toDigits (by decide) (by decide) hc
  simp only [Char.isDigit, Bool.and_eq_true, decide_eq_true_eq] at this
  have h1 : 48 ≤ c.toNat := by
    have := this.1
    simpa [UInt32.le_iff_toNat_le] using this
  simp only [legal, Bool.or_eq_true, decide_eq_true_eq]
  right; omega

/-- Items without text, each of which a reader finds again. -/
def Plain (l : List Item) : Prop := ∀ i ∈ l, GoodItem i ∧ ∀ v, i ≠ .text v

theorem good_plain : ∀ (l rest : List Item), Plain l → Good false rest → Good false (l ++ rest) := by
  intro l
  induction l with
  | nil => intro rest _ h; exact h
  | cons i l ih =>
    intro rest hp hg
    have hi := hp i (by simp)
    have hrec := ih rest (fun j hj => hp j (by simp [hj])) hg
    cases i with
    | text v => exact absurd rfl (hi.2 v)
    | doctype v => exact ⟨hi.1, hrec⟩
    | comment v => exact ⟨hi.1, hrec⟩
    | start n as => exact ⟨hi.1, hrec⟩
    | empty n as => exact ⟨hi.1, hrec⟩
    | stop n => exact ⟨hi.1, hrec⟩

/-- Items that leave the open elements as they are. -/
def Balanced (l : List Item) : Prop := ∀ stack rest, nested stack (l ++ rest) = nested stack rest

theorem balanced_empties (l : List Item) (h : ∀ i ∈ l, ∃ n as, i = .empty n as) : Balanced l := by
  induction l with
  | nil => intro stack rest; rfl
  | cons i l ih =>
    intro stack rest
    obtain ⟨n, as, rfl⟩ := h i (by simp)
    rw [List.cons_append, nested]
    · exact ih (fun j hj => h j (by simp [hj])) stack rest
    all_goals simp

theorem balanced_append {a b : List Item} (ha : Balanced a) (hb : Balanced b) : Balanced (a ++ b) := by
  intro stack rest
  rw [List.append_assoc, ha, hb]

theorem balanced_element (n : Text) (as : List (Text × Text)) (l : List Item) (h : Balanced l) : Balanced (element n as l) := by
  intro stack rest
  cases l with
  | nil => exact balanced_empties _ (by intro i hi; simp [element] at hi; exact ⟨_, _, hi⟩) stack rest
  | cons c cs =>
    have e : element n as (c :: cs) ++ rest = .start n as :: ((c :: cs) ++ (.stop n :: rest)) := by simp [element]
    rw [e, nested, h, nested]
    simp

theorem plain_element (n : Text) (as : List (Text × Text)) (l : List Item) (hn : GoodName n) (ha : GoodAttributes as) (h : Plain l) :
    Plain (element n as l) := by
  intro i hi
  cases l with
  | nil => simp [element] at hi; subst hi; exact ⟨⟨hn, ha⟩, by simp⟩
  | cons c cs =>
    simp only [element, List.cons_append, List.mem_cons, List.mem_append, List.not_mem_nil, or_false] at hi
    rcases hi with rfl | rfl | hi | rfl
    · exact ⟨⟨hn, ha⟩, by simp⟩
    · exact h _ (by simp)
    · exact h _ (by simp [hi])
    · exact ⟨hn, by simp⟩

theorem channel_plain : Plain channelItems := by
  have h : ∀ i ∈ channelItems, GoodItem i ∧ (match i with | .text _ => false | _ => true) = true := by decide +kernel
  intro i hi
  refine ⟨(h i hi).1, ?_⟩
  rintro v rfl
  exact absurd (h _ hi).2 (by simp)

theorem channel_balanced : Balanced channelItems := by
  unfold channelItems
  refine balanced_append (balanced_element _ _ _ (balanced_element _ _ _ (balanced_empties _ ?_)))
    (balanced_element _ _ _ (balanced_append (balanced_element _ _ _ (balanced_empties _ ?_)) (balanced_empties _ ?_)))
  · intro i hi; obtain ⟨c, _, rfl⟩ := List.mem_map.1 hi; exact ⟨_, _, rfl⟩
  · intro i hi; obtain ⟨c, _, rfl⟩ := List.mem_map.1 hi; exact ⟨_, _, rfl⟩
  · intro i hi
    simp only [List.mem_cons, List.not_mem_nil, or_false] at hi
    rcases hi with rfl | rfl <;> exact ⟨_, _, rfl⟩

theorem good_number : GoodName wNumber := by decide +kernel
theorem good_name : GoodName wName := by decide +kernel

theorem controlEntry_good (n : Nat) (name : Text) (h : ∀ c ∈ name, legal c = true) : GoodItem (controlEntry n name) := by
  refine ⟨by decide +kernel, ?_, ?_⟩
  · show ([wType, wNumber, wName] : List Text).Nodup
    decide +kernel
  · intro a ha
    rw [cstr_eq name h] at ha
    simp only [List.mem_cons, List.not_mem_nil, or_false] at ha
    rcases ha with rfl | rfl | rfl
    · exact ⟨by decide +kernel, by decide +kernel⟩
    · exact ⟨good_number, decimal_legal n⟩
    · exact ⟨good_name, h⟩

theorem noteEntry_good (n : Nat) (name : Text) (h : ∀ c ∈ name, legal c = true) : GoodItem (noteEntry n name) := by
  refine ⟨by decide +kernel, ?_, ?_⟩
  · show ([wNumber, wName] : List Text).Nodup
    decide +kernel
  · intro a ha
    rw [cstr_eq name h] at ha
    simp only [List.mem_cons, List.not_mem_nil, or_false] at ha
    rcases ha with rfl | rfl
    · exact ⟨good_number, decimal_legal n⟩
    · exact ⟨good_name, h⟩

/-- Clearing the bits of the controllers that have names. -/
theorem clear_named (labels : List (Nat × Text)) : ∀ (d : List (BitVec 8)) (s : Nat → Bool), BitArray.Rep 512 d s →
    (∀ p ∈ labels, p.1 < 512) → ∃ d', labels.foldlM (fun d p => BitArray.setTo d p.1 false) d = some d' ∧
      BitArray.Rep 512 d' (fun n => s n && decide (n ∉ labels.map Prod.fst)) := by
  induction labels with
  | nil => intro d s h _; exact ⟨d, rfl, by simpa using h⟩
  | cons p l ih =>
    intro d s h hb
    obtain ⟨d1, h1, r1⟩ := BitArray.step_spec 512 d s (.setTo p.1 false) h (Or.inr (hb p (by simp)))
    obtain ⟨d2, h2, r2⟩ := ih d1 _ r1 (fun q hq => hb q (by simp [hq]))
    refine ⟨d2, ?_, ?_⟩
    · rw [List.foldlM_cons]
      have h1' : BitArray.setTo d p.1 false = some d1 := h1
      rw [h1']; exact h2
    · have e : (fun n => s n && decide (n ∉ (p :: l).map Prod.fst)) =
          (fun n => BitArray.specStep s (.setTo p.1 false) n && decide (n ∉ l.map Prod.fst)) := by
        funext n
        simp only [BitArray.specStep, List.map_cons, List.mem_cons, not_or]
        by_cases hn : n = p.1
        · simp [hn]
        · simp [hn]
      rw [e]; exact r2

theorem test_rep {d : List (BitVec 8)} {s : Nat → Bool} (h : BitArray.Rep 512 d s) (i : Nat) (hi : i < 512) : BitArray.test d i = some (s i) := by
  have hl : i / 8 < d.length := by rw [h.1]; simp [BitArray.byteSize]; omega
  have hb := h.2.1 i
  unfold BitArray.bitAt at hb
  unfold BitArray.test
  rw [List.getElem?_eq_getElem hl] at hb ⊢
  simp only [Option.map_some, Option.getD_some] at hb ⊢
  rw [BitArray.and_bit_ne, hb]

/-- The entries for controllers, without the bit array. -/
theorem controlEntries_eq (labels : List (Nat × Text)) (used : List (BitVec 8)) (s : Nat → Bool) (h : BitArray.Rep 512 used s)
    (hb : ∀ p ∈ labels, p.1 < 512) :
    controlEntries labels used = some ((labels.filter (fun p => p.1 < 128)).map (fun p => controlEntry p.1 p.2) ++
      ((List.range 128).filter (fun i => s i && decide (i ∉ labels.map Prod.fst))).map (fun i => controlEntry i (wUnnamed ++ decimal i))) := by
  obtain ⟨d, hd, hr⟩ := clear_named labels used s h hb
  have hf : (List.range 128).filter (fun i => BitArray.test d i == some true) =
      (List.range 128).filter (fun i => s i && decide (i ∉ labels.map Prod.fst)) := by
    apply List.filter_congr
    intro i hi
    rw [test_rep hr i (by have := List.mem_range.1 hi; omega)]
    cases hs : s i && decide (i ∉ labels.map Prod.fst) <;> rfl
  simp only [controlEntries, hd, hf]

theorem unnamed_legal (i : Nat) : ∀ c ∈ wUnnamed ++ decimal i, legal c = true := by
  intro c hc
  rcases List.mem_append.1 hc with h | h
  · have : ∀ c ∈ wUnnamed, legal c = true := by decide +kernel
    exact this c h
  · exact decimal_legal i c h

theorem head_good (model : Text) (rest : List Item) (hm : ∀ c ∈ model, legal c = true ∧ c ≠ '\r') (hb : ∃ c ∈ model, blank c = false)
    (hr : Good false rest) : Good false (headItems model ++ rest) := by
  have hc : cstr model = model := cstr_eq model (fun c hc => (hm c hc).1)
  unfold headItems
  rw [hc]
  refine ⟨by decide +kernel, ?_, by decide +kernel, ?_, ?_, ?_, ?_⟩
  · exact ⟨by decide +kernel, by decide +kernel⟩
  · exact ⟨by decide +kernel, by decide +kernel⟩
  · exact ⟨by decide +kernel, by decide +kernel⟩
  · exact ⟨by decide +kernel, by decide +kernel⟩
  · refine ⟨rfl, by decide +kernel, by decide +kernel, ⟨by decide +kernel, by decide +kernel⟩, rfl, ⟨hm, hb⟩, ?_, hr⟩
    show GoodName wModel
    decide +kernel

theorem head_nested (model : Text) (stack : List Text) (rest : List Item) :
    nested stack (headItems model ++ rest) = nested ("MasterDeviceNames".toList :: "MIDINameDocument".toList :: stack) rest := by
  unfold headItems
  generalize "MasterDeviceNames".toList = a
  generalize "MIDINameDocument".toList = b
  generalize "Manufacturer".toList = c
  simp [nested]

/-- The document, and that a reader finds it. -/
theorem document_read (e : Engine) (model : Text) (s : Nat → Bool) (h : Fine e model s) :
    ∃ items, document e model = some items ∧ readXml (save items) = some items := by
  have hc := controlEntries_eq e.controls e.used s h.used h.below
  refine ⟨_, by rw [document, hc], read_save _ ?_ ?_⟩
  · simp only [List.append_assoc]
    have hmodel : (∀ c ∈ (if model = [] then "Sfizz".toList else model), legal c = true ∧ c ≠ '\r') ∧
        ∃ c ∈ (if model = [] then "Sfizz".toList else model), blank c = false := by
      split_ifs with hm
      · exact ⟨by decide +kernel, by decide +kernel⟩
      · exact ⟨h.modelLegal, h.modelBlank.resolve_left hm⟩
    refine head_good _ _ hmodel.1 hmodel.2 (good_plain _ _ channel_plain (good_plain _ _ ?_ (good_plain _ _ ?_ ?_)))
    · refine plain_element _ _ _ (by decide +kernel) (by decide +kernel) ?_
      intro i hi
      rcases List.mem_append.1 hi with hi | hi
      · obtain ⟨p, hp, rfl⟩ := List.mem_map.1 hi
        exact ⟨controlEntry_good _ _ (h.controls p (List.mem_filter.1 hp).1), by simp [controlEntry]⟩
      · obtain ⟨k, _, rfl⟩ := List.mem_map.1 hi
        exact ⟨controlEntry_good _ _ (unnamed_legal k), by simp [controlEntry]⟩
    · refine plain_element _ _ _ (by decide +kernel) (by decide +kernel) ?_
      intro i hi
      rcases List.mem_append.1 hi with hi | hi
      · obtain ⟨p, hp, rfl⟩ := List.mem_map.1 hi
        exact ⟨noteEntry_good _ _ (h.switches p hp), by simp [noteEntry]⟩
      · obtain ⟨p, hp, rfl⟩ := List.mem_map.1 hi
        exact ⟨noteEntry_good _ _ (h.keys p hp), by simp [noteEntry]⟩
    · refine ⟨?_, ?_, trivial⟩
      · show GoodName _; decide +kernel
      · show GoodName _; decide +kernel
  · simp only [List.append_assoc]
    rw [head_nested, channel_balanced, balanced_element, balanced_element]
    · generalize "MasterDeviceNames".toList = a
      generalize "MIDINameDocument".toList = b
      simp [nested]
    · refine balanced_empties _ ?_
      intro i hi
      rcases List.mem_append.1 hi with hi | hi <;> (obtain ⟨p, _, rfl⟩ := List.mem_map.1 hi; exact ⟨_, _, rfl⟩)
    · refine balanced_empties _ ?_
      intro i hi
      rcases List.mem_append.1 hi with hi | hi <;> (obtain ⟨p, _, rfl⟩ := List.mem_map.1 hi; exact ⟨_, _, rfl⟩)

theorem entries_append (k : Text) (a b : List Item) : entries k (a ++ b) = entries k a ++ entries k b := by
  simp [entries]

theorem entries_element (k n : Text) (as : List (Text × Text)) (l : List Item) (hn : n ≠ k) : entries k (element n as l) = entries k l := by
  cases l with
  | nil => simp [entries, element, hn]
  | cons c cs =>
    have : element n as (c :: cs) = [.start n as] ++ (c :: cs) ++ [.stop n] := rfl
    rw [this, entries_append, entries_append]
    simp [entries]

theorem lookup_control (n : Nat) (v : Text) : List.lookup wNumber [(wType, "7bit".toList), (wNumber, decimal n), (wName, v)] = some (decimal n) ∧
    List.lookup wName [(wType, "7bit".toList), (wNumber, decimal n), (wName, v)] = some v := by
  have h1 : (wNumber == wType) = false := by decide +kernel
  have h2 : (wName == wType) = false := by decide +kernel
  have h3 : (wName == wNumber) = false := by decide +kernel
  constructor
  · rw [List.lookup_cons, h1, List.lookup_cons]; simp
  · rw [List.lookup_cons, h2, List.lookup_cons, h3, List.lookup_cons]; simp

theorem lookup_note (n : Nat) (v : Text) : List.lookup wNumber [(wNumber, decimal n), (wName, v)] = some (decimal n) ∧
    List.lookup wName [(wNumber, decimal n), (wName, v)] = some v := by
  have h3 : (wName == wNumber) = false := by decide +kernel
  constructor
  · rw [List.lookup_cons]; simp
  · rw [List.lookup_cons, h3, List.lookup_cons]; simp

theorem control_ne_note : wControl ≠ wNote := by decide +kernel

theorem entries_controls (l : List (Nat × Text)) : entries wControl (l.map (fun p => controlEntry p.1 p.2)) = l.map (fun p => (p.1, cstr p.2)) := by
  induction l with
  | nil => rfl
  | cons p l ih =>
    rw [List.map_cons, List.map_cons, ← ih]
    have := lookup_control p.1 (cstr p.2)
    simp only [entries, controlEntry, List.filterMap_cons, if_true, this.1, this.2, decimal_read]

theorem entries_notes (l : List (Nat × Text)) : entries wNote (l.map (fun p => noteEntry p.1 p.2)) = l.map (fun p => (p.1, cstr p.2)) := by
  induction l with
  | nil => rfl
  | cons p l ih =>
    rw [List.map_cons, List.map_cons, ← ih]
    have := lookup_note p.1 (cstr p.2)
    simp only [entries, noteEntry, List.filterMap_cons, if_true, this.1, this.2, decimal_read]

theorem entries_other_controls (l : List (Nat × Text)) : entries wNote (l.map (fun p => controlEntry p.1 p.2)) = [] := by
  induction l with
  | nil => rfl
  | cons p l ih =>
    rw [List.map_cons]
    simp only [entries, controlEntry, List.filterMap_cons, if_neg control_ne_note] at ih ⊢
    exact ih

theorem entries_other_notes (l : List (Nat × Text)) : entries wControl (l.map (fun p => noteEntry p.1 p.2)) = [] := by
  induction l with
  | nil => rfl
  | cons p l ih =>
    rw [List.map_cons]
    simp only [entries, noteEntry, List.filterMap_cons, if_neg control_ne_note.symm] at ih ⊢
    exact ih

theorem entries_head (k model : Text) (hk : "Author".toList ≠ k) : entries k (headItems model) = [] := by
  unfold headItems
  revert hk
  generalize "Author".toList = a
  intro hk
  simp only [entries, List.filterMap_cons, if_neg hk, List.filterMap_nil]

theorem entries_channel : entries wControl channelItems = [] ∧ entries wNote channelItems = [] := by
  constructor <;> decide +kernel

theorem map_cstr (l : List (Nat × Text)) (h : ∀ p ∈ l, ∀ c ∈ p.2, legal c = true) : l.map (fun p => (p.1, cstr p.2)) = l := by
  rw [List.map_congr_left (g := id)]
  · simp
  · intro p hp; rw [cstr_eq p.2 (h p hp)]; rfl

theorem lookup_iff_mem (l : List (Nat × Text)) (h : (l.map Prod.fst).Nodup) (n : Nat) (v : Text) : l.lookup n = some v ↔ (n, v) ∈ l := by
  induction l with
  | nil => simp
  | cons p l ih =>
    obtain ⟨a, b⟩ := p
    rw [List.map_cons, List.nodup_cons] at h
    rw [List.lookup_cons]
    by_cases hn : n = a
    · subst hn
      simp only [beq_self_eq_true, List.mem_cons, Prod.mk.injEq, true_and]
      constructor
      · intro h'; left; exact (Option.some.inj h').symm
      · rintro (rfl | hm)
        · rfl
        · exact absurd (List.mem_map_of_mem (f := Prod.fst) hm) h.1
    · have : (n == a) = false := by simpa using hn
      simp only [this, List.mem_cons, Prod.mk.injEq, hn, false_and, false_or]
      exact ih h.2

theorem lookup_none_iff (l : List (Nat × Text)) (n : Nat) : l.lookup n = none ↔ n ∉ l.map Prod.fst := by
  induction l with
  | nil => simp
  | cons p l ih =>
    rw [List.lookup_cons]
    by_cases hn : n = p.1
    · subst hn; simp
    · have : (n == p.1) = false := by simpa using hn
      simp only [this, List.map_cons, List.mem_cons, hn, false_or]
      exact ih

/-- The entries of the document. -/
theorem document_entries (e : Engine) (model : Text) (s : Nat → Bool) (h : Fine e model s) (items : List Item) (hd : document e model = some items) :
    entries wControl items = e.controls.filter (fun p => p.1 < 128) ++
      ((List.range 128).filter (fun i => s i && decide (i ∉ e.controls.map Prod.fst))).map (fun i => (i, wUnnamed ++ decimal i)) ∧
    entries wNote items = e.switches ++ e.keys := by
  have hc := controlEntries_eq e.controls e.used s h.used h.below
  simp only [document, hc, Option.some.injEq] at hd
  subst hd
  have e2 : ((List.range 128).filter (fun i => s i && decide (i ∉ e.controls.map Prod.fst))).map (fun i => controlEntry i (wUnnamed ++ decimal i)) =
      (((List.range 128).filter (fun i => s i && decide (i ∉ e.controls.map Prod.fst))).map (fun i => (i, wUnnamed ++ decimal i))).map
        (fun p => controlEntry p.1 p.2) := by
    simp
  have m1 := map_cstr (e.controls.filter (fun p => p.1 < 128)) (fun p hp => h.controls p (List.mem_filter.1 hp).1)
  have m2 := map_cstr (((List.range 128).filter (fun i => s i && decide (i ∉ e.controls.map Prod.fst))).map (fun i => (i, wUnnamed ++ decimal i)))
    (by intro p hp; obtain ⟨i, _, rfl⟩ := List.mem_map.1 hp; exact unnamed_legal i)
  rw [e2]
  constructor
  · have hstop : entries wControl [Item.stop "MasterDeviceNames".toList, Item.stop "MIDINameDocument".toList] = [] := rfl
    rw [entries_append, entries_append, entries_append, entries_append, entries_head _ _ (by decide +kernel), entries_channel.1,
      entries_element _ _ _ _ (by decide +kernel), entries_element _ _ _ _ (by decide +kernel), entries_append, entries_append,
      entries_controls, entries_controls, entries_other_notes, entries_other_notes, m1, m2, hstop]
    simp
  · have hstop : entries wNote [Item.stop "MasterDeviceNames".toList, Item.stop "MIDINameDocument".toList] = [] := rfl
    rw [entries_append, entries_append, entries_append, entries_append, entries_head _ _ (by decide +kernel), entries_channel.2,
      entries_element _ _ _ _ (by decide +kernel), entries_element _ _ _ _ (by decide +kernel), entries_append, entries_append,
      entries_other_controls, entries_other_controls, entries_notes, entries_notes, map_cstr _ h.switches, map_cstr _ h.keys, hstop]
    simp

/-! ### Theorems -/

/-- C149: the export is defined and is well-formed, whatever the names are, as long as their characters may be in XML at all. -/
theorem export_well_formed (e : Engine) (model : Text) (s : Nat → Bool) (h : Fine e model s) :
    ∃ text items, exportNames e model = some text ∧ readXml text = some items := by
  obtain ⟨items, hd, hr⟩ := document_read e model s h
  exact ⟨save items, items, by rw [exportNames, hd]; rfl, hr⟩

/-- C149: a reader finds exactly these controllers, each once: those below 128 that have a name, with this name, and those in use that have
none, named by their number. -/
theorem controller_names (e : Engine) (model : Text) (s : Nat → Bool) (h : Fine e model s) (text : Text) (items : List Item)
    (hx : exportNames e model = some text) (hr : readXml text = some items) :
    (∀ n name, (n, name) ∈ entries wControl items ↔
      n < 128 ∧ (e.controls.lookup n = some name ∨ (e.controls.lookup n = none ∧ s n = true ∧ name = wUnnamed ++ decimal n))) ∧
    ((entries wControl items).map Prod.fst).Nodup := by
  obtain ⟨items', hd, hr'⟩ := document_read e model s h
  have : text = save items' := by rw [exportNames, hd] at hx; exact (Option.some.inj hx).symm
  subst this
  rw [hr'] at hr
  obtain rfl := Option.some.inj hr
  rw [(document_entries e model s h items' hd).1]
  constructor
  · intro n name
    rw [lookup_iff_mem _ h.once, lookup_none_iff]
    simp only [List.mem_append, List.mem_filter, List.mem_map, List.mem_range, Bool.and_eq_true, decide_eq_true_eq, Prod.mk.injEq]
    constructor
    · rintro (⟨h1, h2⟩ | ⟨i, ⟨h1, h2, h3⟩, rfl, rfl⟩)
      · exact ⟨h2, Or.inl h1⟩
      · exact ⟨h1, Or.inr ⟨by simpa using h3, h2, rfl⟩⟩
    · rintro ⟨h1, h2 | ⟨h2, h3, rfl⟩⟩
      · exact Or.inl ⟨h2, h1⟩
      · exact Or.inr ⟨n, ⟨h1, h3, by simpa using h2⟩, rfl, rfl⟩
  · rw [List.map_append, List.map_map]
    refine List.Nodup.append ?_ ?_ ?_
    · exact h.once.sublist ((List.filter_sublist).map _)
    · have : (Prod.fst ∘ fun i : Nat => (i, wUnnamed ++ decimal i)) = id := rfl
      rw [this, List.map_id]
      exact List.nodup_range.filter _
    · intro n h1 h2
      obtain ⟨p, hp, rfl⟩ := List.mem_map.1 h1
      obtain ⟨i, hi, he⟩ := List.mem_map.1 h2
      have hi' := (List.mem_filter.1 hi).2
      simp only [Bool.and_eq_true, decide_eq_true_eq] at hi'
      simp only [Function.comp] at he
      apply hi'.2
      rw [he]
      exact List.mem_map_of_mem (List.mem_filter.1 hp).1

/-- C149: a reader finds exactly the keys that have a name, and the key-switches that have one, with these names. -/
theorem key_names_partial (e : Engine) (model : Text) (s : Nat → Bool) (h : Fine e model s) (text : Text) (items : List Item)
    (hx : exportNames e model = some text) (hr : readXml text = some items) :
    ∀ k name, (k, name) ∈ entries wNote items ↔ (k, name) ∈ e.switches ∨ (k, name) ∈ e.keys := by
  obtain ⟨items', hd, hr'⟩ := document_read e model s h
  have : text = save items' := by rw [exportNames, hd] at hx; exact (Option.some.inj hx).symm
  subst this
  rw [hr'] at hr
  obtain rfl := Option.some.inj hr
  rw [(document_entries e model s h items' hd).2]
  simp

/-- C149: a reader finds the name of the model that was asked for, or that of the engine if none was. -/
theorem model_name (e : Engine) (model : Text) (s : Nat → Bool) (h : Fine e model s) (text : Text) (items : List Item)
    (hx : exportNames e model = some text) (hr : readXml text = some items) :
    ∃ before after, items = before ++ [.start wModel [], .text (if model = [] then "Sfizz".toList else model), .stop wModel] ++ after := by
  obtain ⟨items', hd, hr'⟩ := document_read e model s h
  have : text = save items' := by rw [exportNames, hd] at hx; exact (Option.some.inj hx).symm
  subst this
  rw [hr'] at hr
  obtain rfl := Option.some.inj hr
  have hc := controlEntries_eq e.controls e.used s h.used h.below
  simp only [document, hc, Option.some.injEq] at hd
  subst hd
  have hm : cstr (if model = [] then "Sfizz".toList else model) = (if model = [] then "Sfizz".toList else model) := by
    apply cstr_eq
    split_ifs with hm
    · decide +kernel
    · exact fun c hc => (h.modelLegal c hc).1
  rw [headItems, hm]
  generalize (if model = [] then "Sfizz".toList else model) = m
  simp only [List.append_assoc]
  exact ⟨[_, _, _, _, _, _, _, _], _, rfl⟩

/-- The elements of a kind that have nothing below them: their attributes. -/
def leaves (kind : Text) (items : List Item) : List (List (Text × Text)) :=
  items.filterMap (fun i => match i with | .empty n as => if n = kind then some as else none | _ => none)

def wAssign : Text := "ChannelNameSetAssign".toList
def wAvailable : Text := "AvailableChannel".toList

theorem leaves_append (k : Text) (a b : List Item) : leaves k (a ++ b) = leaves k a ++ leaves k b := by simp [leaves]

theorem leaves_none (k : Text) (l : List Item) (h : ∀ as, Item.empty k as ∉ l) : leaves k l = [] := by
  unfold leaves
  rw [List.filterMap_eq_nil_iff]
  intro i hi
  cases i with
  | empty n as =>
    simp only
    rw [if_neg]
    rintro rfl
    exact h as hi
  | _ => rfl

theorem leaf_element (k n : Text) (as : List (Text × Text)) (l : List Item) (hn : n ≠ k) (h : ∀ as, Item.empty k as ∉ l) :
    ∀ x, Item.empty k x ∉ element n as l := by
  intro x
  cases l with
  | nil => simp [element, hn.symm]
  | cons c cs =>
    have := h x
    simp only [element, List.cons_append, List.mem_cons, List.mem_append, reduceCtorEq, List.not_mem_nil, or_false, false_or]
    simpa using this

/-- C149: a reader finds that each of the 16 channels has the names of the set, and can be played. -/
theorem channel_names (e : Engine) (model : Text) (s : Nat → Bool) (h : Fine e model s) (text : Text) (items : List Item)
    (hx : exportNames e model = some text) (hr : readXml text = some items) :
    (leaves wAssign items).map (fun as => (as.lookup "Channel".toList, as.lookup "NameSet".toList)) =
      (List.range' 1 16).map (fun c => (some (decimal c), some "Play".toList)) ∧
    (leaves wAvailable items).map (fun as => (as.lookup "Channel".toList, as.lookup "Available".toList)) =
      (List.range' 1 16).map (fun c => (some (decimal c), some "true".toList)) := by
  obtain ⟨items', hd, hr'⟩ := document_read e model s h
  have : text = save items' := by rw [exportNames, hd] at hx; exact (Option.some.inj hx).symm
  subst this
  rw [hr'] at hr
  obtain rfl := Option.some.inj hr
  have hc := controlEntries_eq e.controls e.used s h.used h.below
  simp only [document, hc, Option.some.injEq] at hd
  subst hd
  have rest : ∀ k, k ≠ wControl → k ≠ wNote → "ControlNameList".toList ≠ k → "NoteNameList".toList ≠ k → "Author".toList ≠ k → ∀ m cs ns : List Item,
      (∀ i ∈ cs, ∃ n v, i = controlEntry n v) → (∀ i ∈ ns, ∃ n v, i = noteEntry n v) → ∀ model a b,
      leaves k (headItems model ++ m ++ element "ControlNameList".toList [(wName, "Controls".toList)] cs ++
        element "NoteNameList".toList [(wName, "Notes".toList)] ns ++ [.stop a, .stop b]) = leaves k m := by
    intro k h1 h2 h3 h4 h5 m cs ns hcs hns model a b
    have e1 : leaves k (headItems model) = [] := by
      apply leaves_none
      intro as
      unfold headItems
      revert h5
      generalize "Author".toList = a
      intro h5
      simp [Ne.symm h5]
    have e2 : leaves k (element "ControlNameList".toList [(wName, "Controls".toList)] cs) = [] := by
      apply leaves_none
      apply leaf_element _ _ _ _ h3
      intro as hm
      obtain ⟨n, v, hv⟩ := hcs _ hm
      simp only [controlEntry, Item.empty.injEq] at hv
      exact h1 hv.1
    have e3 : leaves k (element "NoteNameList".toList [(wName, "Notes".toList)] ns) = [] := by
      apply leaves_none
      apply leaf_element _ _ _ _ h4
      intro as hm
      obtain ⟨n, v, hv⟩ := hns _ hm
      simp only [noteEntry, Item.empty.injEq] at hv
      exact h2 hv.1
    rw [leaves_append, leaves_append, leaves_append, leaves_append, e1, e2, e3]
    simp [leaves]
  have hcs : ∀ i ∈ (e.controls.filter (fun p => p.1 < 128)).map (fun p => controlEntry p.1 p.2) ++
      ((List.range 128).filter (fun i => s i && decide (i ∉ e.controls.map Prod.fst))).map (fun i => controlEntry i (wUnnamed ++ decimal i)),
      ∃ n v, i = controlEntry n v := by
    intro i hi
    rcases List.mem_append.1 hi with hi | hi <;> (obtain ⟨p, _, rfl⟩ := List.mem_map.1 hi; exact ⟨_, _, rfl⟩)
  have hns : ∀ i ∈ e.switches.map (fun p => noteEntry p.1 p.2) ++ e.keys.map (fun p => noteEntry p.1 p.2), ∃ n v, i = noteEntry n v := by
    intro i hi
    rcases List.mem_append.1 hi with hi | hi <;> (obtain ⟨p, _, rfl⟩ := List.mem_map.1 hi; exact ⟨_, _, rfl⟩)
  constructor
  · rw [rest wAssign (by decide +kernel) (by decide +kernel) (by decide +kernel) (by decide +kernel) (by decide +kernel) _ _ _ hcs hns]
    decide +kernel
  · rw [rest wAvailable (by decide +kernel) (by decide +kernel) (by decide +kernel) (by decide +kernel) (by decide +kernel) _ _ _ hcs hns]
    decide +kernel

/-! ### Names of key-switches -/

/-- A region is about a key-switch. -/
def Switch.covers (r : Switch) (k : Nat) : Bool :=
  r.last == some k || (match r.range with | some (lo, hi) => decide (lo ≤ k ∧ k ≤ hi) | none => false)

theorem lookup_setLabel (k j : Nat) (s : Text) (l : List (Nat × Text)) :
    (setLabel k s l).lookup j = if j = k then some s else l.lookup j := by
  unfold setLabel
  by_cases h : l.any (fun p => p.1 = k) = true
  · rw [if_pos h]
    have gen : ∀ m : List (Nat × Text), (m.map (fun p => if p.1 = k then (k, s) else p)).lookup j =
        if j = k then (if k ∈ m.map Prod.fst then some s else none) else m.lookup j := by
      intro m
      induction m with
      | nil => simp
      | cons p m ih =>
        obtain ⟨a, b⟩ := p
        by_cases ha : a = k
        · subst ha
          by_cases hj : j = a
          · subst hj; simp
          · have hj' : (j == a) = false := by simpa using hj
            simp only [List.map_cons, if_true, List.lookup_cons, hj', if_neg hj] at ih ⊢
            exact ih
        · by_cases hj : j = k
          · subst hj
            have hja : ¬ j = a := fun e => ha e.symm
            have hj' : (j == a) = false := by simpa using hja
            simp only [List.map_cons, if_neg ha, List.lookup_cons, hj', if_true, List.mem_cons] at ih ⊢
            rw [ih]
            simp only [hja, false_or]
          · simp only [List.map_cons, if_neg ha, List.lookup_cons, if_neg hj] at ih ⊢
            rw [ih]
    rw [gen]
    have hk : k ∈ l.map Prod.fst := by
      obtain ⟨p, hp, hpk⟩ := List.any_eq_true.1 h
      exact List.mem_map.2 ⟨p, hp, by simpa using hpk⟩
    simp [hk]
  · rw [if_neg h]
    have hk : l.lookup k = none := by
      rw [lookup_none_iff]
      intro hk
      obtain ⟨p, hp, hpk⟩ := List.mem_map.1 hk
      exact h (List.any_eq_true.2 ⟨p, hp, by simpa using hpk⟩)
    rw [List.lookup_append]
    by_cases hj : j = k
    · subst hj; simp [hk]
    · have hj' : (j == k) = false := by simpa using hj
      simp [hj, hj', List.lookup_cons]

theorem setLabel_once (k : Nat) (s : Text) (l : List (Nat × Text)) (h : (l.map Prod.fst).Nodup) : ((setLabel k s l).map Prod.fst).Nodup := by
  unfold setLabel
  split_ifs with hk
  · have : (l.map (fun p => if p.1 = k then (k, s) else p)).map Prod.fst = l.map Prod.fst := by
      rw [List.map_map]
      apply List.map_congr_left
      intro p _
      simp only [Function.comp]
      split_ifs with hp
      · exact hp.symm
      · rfl
    rw [this]; exact h
  · rw [List.map_append]
    refine List.Nodup.append h (by simp) ?_
    intro n h1 h2
    obtain ⟨p, hp, rfl⟩ := List.mem_map.1 h1
    simp at h2
    exact hk (List.any_eq_true.2 ⟨p, hp, by simpa using h2⟩)

theorem lookup_range (s : Text) (j : Nat) : ∀ (ks : List Nat) (l : List (Nat × Text)),
    (ks.foldl (fun l k => setLabel k s l) l).lookup j = if j ∈ ks then some s else l.lookup j := by
  intro ks
  induction ks with
  | nil => intro l; simp
  | cons k ks ih =>
    intro l
    rw [List.foldl_cons, ih, lookup_setLabel]
    by_cases h1 : j ∈ ks
    · simp [h1]
    · by_cases h2 : j = k <;> simp [h1, h2]

theorem lookup_nameSwitches (l : List (Nat × Text)) (r : Switch) (k : Nat) :
    (nameSwitches l r).lookup k = if r.covers k then r.label.or (l.lookup k) else l.lookup k := by
  obtain ⟨last, range, label⟩ := r
  cases label with
  | none => simp [nameSwitches]
  | some s =>
    cases last with
    | none =>
      cases range with
      | none => simp [nameSwitches, Switch.covers]
      | some x =>
        obtain ⟨lo, hi⟩ := x
        simp only [nameSwitches, lookup_range, List.mem_range'_1, Switch.covers]
        by_cases hk : lo ≤ k ∧ k ≤ hi
        · rw [if_pos (by omega)]; simp [hk]
        · rw [if_neg (by omega)]; simp [hk]
    | some q =>
      cases range with
      | none =>
        simp only [nameSwitches, lookup_setLabel, Switch.covers]
        by_cases hk : k = q
        · subst hk; simp
        · have : ¬ q = k := fun e => hk e.symm
          simp [hk, this]
      | some x =>
        obtain ⟨lo, hi⟩ := x
        simp only [nameSwitches, lookup_range, lookup_setLabel, List.mem_range'_1, Switch.covers]
        by_cases hk : lo ≤ k ∧ k ≤ hi
        · rw [if_pos (by omega)]; simp [hk]
        · rw [if_neg (by omega)]
          by_cases hq : k = q
          · subst hq; simp
          · have : ¬ q = k := fun e => hq e.symm
            simp [hk, hq, this]

/-- C149: the name of a key-switch is the one that the last region about it gives, of those that give one. -/
theorem switch_names (rs : List Switch) (k : Nat) :
    (switchNames rs).lookup k = (rs.filterMap (fun r => if r.covers k then r.label else none)).getLast? := by
  unfold switchNames
  induction rs using List.reverseRecOn with
  | nil => rfl
  | append_singleton rs r ih =>
    rw [List.foldl_append, List.foldl_cons, List.foldl_nil, lookup_nameSwitches, ih, List.filterMap_append]
    cases hc : r.covers k with
    | false => simp [hc]
    | true =>
      cases hl : r.label with
      | none => simp [hc, hl]
      | some s => simp [hc, hl]

/-! ### Where the code falls short -/

/-- An instrument with names. -/
def sample : Engine :=
  { controls := [(7, "Volume".toList), (10, "Pan".toList), (74, "Cut & \"res\" <dark>".toList), (300, "Extended".toList)]
    keys := [(36, "Kick".toList), (38, "Snare".toList)]
    switches := [(24, "Sustain".toList), (36, "Staccato".toList)]
    used := (BitArray.init 512).set 0 0b10000010#8 }

/-- C149: a key that is named and is a key-switch with a name too is told twice, with different names. -/
theorem two_names_violated : ∃ text items, exportNames sample [] = some text ∧ readXml text = some items ∧
    (36, "Kick".toList) ∈ entries wNote items ∧ (36, "Staccato".toList) ∈ entries wNote items := by
  have h : ((exportNames sample []).bind readXml).map (entries wNote) =
      some [(24, "Sustain".toList), (36, "Staccato".toList), (36, "Kick".toList), (38, "Snare".toList)] := by decide +kernel
  obtain ⟨items, hi, he⟩ := Option.map_eq_some_iff.1 h
  obtain ⟨text, ht, hr⟩ := Option.bind_eq_some_iff.1 hi
  refine ⟨text, items, ht, hr, ?_, ?_⟩ <;> rw [he] <;> decide +kernel

/-- C149: a name with a control character, as a file may give it, makes a document that is not XML. -/
theorem control_character_violated : ∃ e : Engine, ∃ text, exportNames e [] = some text ∧ readXml text = none := by
  refine ⟨{ sample with controls := [(1, ['A', '\x01'])] }, ?_⟩
  have h : ((exportNames { sample with controls := [(1, ['A', '\x01'])] } []).map readXml) = some none := by decide +kernel
  obtain ⟨text, ht, hr⟩ := Option.map_eq_some_iff.1 h
  exact ⟨text, ht, hr⟩

/-- C149: `label_cc512` is accepted, and then the export reaches outside of the 512 controllers. -/
theorem label_512_violated (name : Text) : exportNames { sample with controls := [(512, name)] } [] = none := by
  have h : BitArray.setTo sample.used 512 false = none := by decide +kernel
  simp [exportNames, document, controlEntries, h]

/-! ### Cases -/

/-- A name with every character that needs care is found again. -/
example : ((exportNames sample "My <model>".toList).bind readXml).map (fun i => (entries wControl i, entries wNote i)) =
    some ([(7, "Volume".toList), (10, "Pan".toList), (74, "Cut & \"res\" <dark>".toList), (1, "Unnamed CC 1".toList)],
      [(24, "Sustain".toList), (36, "Staccato".toList), (36, "Kick".toList), (38, "Snare".toList)]) := by decide +kernel

example : Fine { sample with used := BitArray.init 512 } "My <model>".toList (fun _ => false) where
  controls := by decide +kernel
  keys := by decide +kernel
  switches := by decide +kernel
  modelLegal := by decide +kernel
  modelBlank := by decide +kernel
  once := by decide +kernel
  below := by decide +kernel
  used := BitArray.rep_init 512

example : switchNames [{ last := some 24, label := some ['A'] }, { range := some (23, 25), label := some ['B'] }, { last := some 25 }] =
    [(24, ['B']), (23, ['B']), (25, ['B'])] := by decide +kernel

end Verif.Names
