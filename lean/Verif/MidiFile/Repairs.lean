import Verif.MidiFile.Props
import Mathlib.Tactic.IntervalCases

/-!
Property C151, files that are not quite as the standard says: other data around the file header, lengths of tracks that are wrong, tracks that
end several times or go on after their end, and sysex messages in parts.
-/
namespace Verif.MidiFile

/-! ### Specification: loosely written files -/

/-- An event; or a sysex message in parts: the first part, then more, then the last, the others each with a time of its own; or another system
message. -/
inductive Loose
  | entry (e : Entry)
  | parts (delta : Nat) (first : List Nat) (more : List (Nat × List Nat)) (lastDelta : Nat) (last : List Nat)
  /-- A system message, which the standard allows inside of an escape only. -/
  | system (delta id : Nat) (data : List Nat)
  /-- Several sysex messages in one. -/
  | packed (delta : Nat) (first : List Nat) (more : List (List Nat))
deriving DecidableEq, Repr

/-- Data of a part: seven bits. -/
def Part (d : List Nat) : Prop := d.length + 1 < 268435456 ∧ ∀ b ∈ d, b < 128

/-- What several messages in one have after `F0` and the length. -/
def packedBytes (first : List Nat) (more : List (List Nat)) : List Nat := first ++ (0xf7 :: more.flatMap fun p => 0xf0 :: (p ++ [0xf7]))

def Loose.Valid : Loose → Prop
  | .entry e => e.Valid
  | .parts d f m ld l => d < 268435456 ∧ Part f ∧ (∀ p ∈ m, p.1 < 268435456 ∧ Part p.2) ∧ ld < 268435456 ∧ Part l
  | .system d id data => d < 268435456 ∧ ((id = 0xf1 ∨ id = 0xf3) ∧ data.length = 1 ∨ id = 0xf2 ∧ data.length = 2 ∨
      (0xf4 ≤ id ∧ id ≤ 0xfe ∧ id ≠ 0xf7) ∧ data = [])
  | .packed d f m => d < 268435456 ∧ (packedBytes f m).length < 268435456 ∧ (∀ b ∈ f, b < 128) ∧ ∀ p ∈ m, ∀ b ∈ p, b < 128

def Loose.bytes (prev : Option Nat) : Loose → List Nat
  | .entry e => e.bytes prev
  | .parts d f m ld l => vlq d ++ (0xf0 :: (vlq f.length ++ f)) ++ (m.flatMap fun q => vlq q.1 ++ (0xf7 :: (vlq q.2.length ++ q.2))) ++
      (vlq ld ++ (0xf7 :: (vlq (l.length + 1) ++ (l ++ [0xf7]))))
  | .system d id data => vlq d ++ (id :: data)
  | .packed d f m => vlq d ++ (0xf0 :: (vlq (packedBytes f m).length ++ packedBytes f m))

def Loose.status : Loose → Option Nat
  | .entry e => e.item.status
  | _ => none

def looseEntries (prev : Option Nat) : List Loose → List Nat
  | [] => []
  | e :: es => e.bytes prev ++ looseEntries e.status es

/-- A message in parts is told as one message, at the time of its first part. Several messages in one are told as several, each as late after the
one before as the first (`packed_violated`). -/
def Loose.told : Loose → List Raw
  | .entry e => [e.item.told e.delta]
  | .parts d f m _ l => [⟨d, .message, 0xf0 :: (f ++ (m.flatMap Prod.snd ++ (l ++ [0xf7])))⟩]
  | .system d id data => [⟨d, .message, id :: data⟩]
  | .packed d f m => (f :: m).map fun p => ⟨d, .message, 0xf0 :: (p ++ [0xf7])⟩

/-- A loosely written track: events, the time of the end, further ends (`2F` or `3F`) with their times, meta events at the same time after the
end, and the length that is claimed for it. -/
structure Sloppy where
  entries : List Loose
  last : Nat
  ends : List (Nat × Bool)
  after : List (Nat × List Nat)
  claimed : Nat
deriving DecidableEq, Repr

def furtherEnds (l : List (Nat × Bool)) : List Nat := l.flatMap fun e => vlq e.1 ++ [0xff, if e.2 then 0x3f else 0x2f, 0]

def afterBytes (l : List (Nat × List Nat)) : List Nat := l.flatMap fun a => [0x00, 0xff, a.1] ++ (vlq a.2.length ++ a.2)

def Sloppy.body (t : Sloppy) : List Nat :=
  looseEntries none t.entries ++ (vlq t.last ++ ([0xff, 0x2f, 0] ++ (furtherEnds t.ends ++ afterBytes t.after)))

def Sloppy.bytes (t : Sloppy) : List Nat := [0x4d, 0x54, 0x72, 0x6b] ++ be4 t.claimed ++ t.body

/-- The further ends are not told; the events after the end are. -/
def Sloppy.told (t : Sloppy) : List Raw :=
  t.entries.flatMap Loose.told ++ [⟨t.last, .metaEvent, [0x2f]⟩] ++ t.after.map fun a => ⟨0, .metaEvent, a.1 :: a.2⟩

def Sloppy.Valid (t : Sloppy) : Prop :=
  (∀ e ∈ t.entries, e.Valid) ∧ t.last < 268435456 ∧ (∀ e ∈ t.ends, e.1 < 268435456) ∧ (∀ a ∈ t.after, (Item.text a.1 a.2).Valid) ∧
    t.claimed < 4294967296

/-- The length that is claimed is right, or it can be seen to be wrong: it goes beyond the file, or to a place where neither the file ends nor a
track begins. -/
def Plain (t : Sloppy) (rest : List Nat) : Prop :=
  t.claimed = t.body.length ∨ (t.body ++ rest).length < t.claimed ∨
    ((t.body ++ rest).drop t.claimed ≠ [] ∧ ((t.body ++ rest).drop t.claimed).take 4 ≠ [0x4d, 0x54, 0x72, 0x6b])

def AllPlain : List Sloppy → Prop
  | [] => True
  | t :: ts => Plain t (ts.flatMap Sloppy.bytes) ∧ AllPlain ts

/-- Any bytes, the file header with any bytes added to it, the tracks. -/
def wrapped (junk more : List Nat) (format unit : Nat) (tracks : List Sloppy) : List Nat :=
  junk ++ ([0x4d, 0x54, 0x68, 0x64] ++ (be4 (6 + more.length) ++ (be2 format ++ (be2 tracks.length ++ (be2 unit ++
    (more ++ tracks.flatMap Sloppy.bytes))))))

/-! ### Lemmas -/

theorem part_no_end {d : List Nat} (h : ∀ b ∈ d, b < 128) : 0xf7 ∉ d := fun hm => absurd (h _ hm) (by decide)

theorem more_parts {d : Nat} {added : List Raw} {ld : Nat} {l : List Nat} (hld : ld < 268435456) (hl : Part l) (r : List Nat)
    (m : List (Nat × List Nat)) : ∀ (f : Nat) (buf : List Nat), (∀ p ∈ m, p.1 < 268435456 ∧ Part p.2) → m.length < f →
    sysexMore f d added buf ((m.flatMap fun q => vlq q.1 ++ (0xf7 :: (vlq q.2.length ++ q.2))) ++
      (vlq ld ++ (0xf7 :: (vlq (l.length + 1) ++ (l ++ [0xf7])))) ++ r) =
      ⟨added ++ [⟨d, .message, buf ++ (m.flatMap Prod.snd ++ (l ++ [0xf7]))⟩], none, r⟩ := by
  induction m with
  | nil =>
    intro f buf _ hf
    obtain ⟨f, rfl⟩ : ∃ g, f = g + 1 := ⟨f - 1, by simp at hf; omega⟩
    have e : ([].flatMap fun q : Nat × List Nat => vlq q.1 ++ (0xf7 :: (vlq q.2.length ++ q.2))) ++
        (vlq ld ++ (0xf7 :: (vlq (l.length + 1) ++ (l ++ [0xf7])))) ++ r = vlq ld ++ (0xf7 :: (vlq (l.length + 1) ++ ((l ++ [0xf7]) ++ r))) := by
      simp
    rw [e]
    unfold sysexMore
    rw [readVlq_vlq hld]
    simp only [if_true]
    rw [readVlq_vlq hl.1]
    simp only
    rw [show l.length + 1 = (l ++ [0xf7]).length by simp, readN_append]
    simp only
    rw [if_pos (by simp), if_neg (by simpa using part_no_end hl.2)]
    simp
  | cons p m ih =>
    intro f buf hm hf
    obtain ⟨f, rfl⟩ : ∃ g, f = g + 1 := ⟨f - 1, by simp at hf; omega⟩
    obtain ⟨hp1, hp2⟩ := hm p (by simp)
    have e : ((p :: m).flatMap fun q : Nat × List Nat => vlq q.1 ++ (0xf7 :: (vlq q.2.length ++ q.2))) ++
        (vlq ld ++ (0xf7 :: (vlq (l.length + 1) ++ (l ++ [0xf7])))) ++ r = vlq p.1 ++ (0xf7 :: (vlq p.2.length ++ (p.2 ++
          ((m.flatMap fun q => vlq q.1 ++ (0xf7 :: (vlq q.2.length ++ q.2))) ++
            (vlq ld ++ (0xf7 :: (vlq (l.length + 1) ++ (l ++ [0xf7])))) ++ r)))) := by
      simp
    rw [e]
    unfold sysexMore
    rw [readVlq_vlq hp1]
    simp only [if_true]
    rw [readVlq_vlq (by have := hp2.1; omega)]
    simp only
    rw [readN_append]
    simp only
    rw [if_neg (part_no_end hp2.2), ih f (buf ++ p.2) (fun q hq => hm q (by simp [hq])) (by simpa using hf)]
    simp

theorem vlq_pos (n : Nat) : 0 < (vlq n).length := by
  unfold vlq
  split <;> (try split) <;> (try split) <;> simp

theorem parts_count (m : List (Nat × List Nat)) : m.length ≤ (m.flatMap fun q => vlq q.1 ++ (0xf7 :: (vlq q.2.length ++ q.2))).length := by
  induction m with
  | nil => simp
  | cons p m ih =>
    simp only [List.flatMap_cons, List.length_append, List.length_cons] at ih ⊢
    omega

theorem first_packed (d : Nat) (l : List Nat) (m : List (List Nat)) : ∀ (fuel : Nat) (added : List Raw) (f : List Nat), (∀ b ∈ f, b < 128) →
    (∀ p ∈ m, ∀ b ∈ p, b < 128) → m.length < fuel →
    sysexFirst fuel d added (packedBytes f m) l = ⟨added ++ (f :: m).map (fun p => ⟨d, .message, 0xf0 :: (p ++ [0xf7])⟩), none, l⟩ := by
  induction m with
  | nil =>
    intro fuel added f hf _ hl
    obtain ⟨fuel, rfl⟩ : ∃ g, fuel = g + 1 := ⟨fuel - 1, by simp at hl; omega⟩
    have e : packedBytes f [] = f ++ [0xf7] := rfl
    rw [e]
    unfold sysexFirst
    rw [if_pos (by simp), takeWhile_data hf, List.drop_of_length_le (by simp)]
    simp
  | cons p m ih =>
    intro fuel added f hf hm hl
    obtain ⟨fuel, rfl⟩ : ∃ g, fuel = g + 1 := ⟨fuel - 1, by simp at hl; omega⟩
    have e : packedBytes f (p :: m) = f ++ (0xf7 :: 0xf0 :: packedBytes p m) := by simp [packedBytes]
    have ht : (packedBytes f (p :: m)).takeWhile (· ≠ 0xf7) = f := by
      rw [e]
      have := takeWhile_data hf
      rw [List.takeWhile_append_of_pos]
      · simp
      · intro a ha
        have := hf a ha
        simp; omega
    have hd : (packedBytes f (p :: m)).drop (f.length + 1) = 0xf0 :: packedBytes p m := by
      rw [e, show f ++ (0xf7 :: 0xf0 :: packedBytes p m) = (f ++ [0xf7]) ++ (0xf0 :: packedBytes p m) by simp,
        List.drop_left' (by simp)]
    unfold sysexFirst
    rw [if_pos (by rw [e]; simp), ht, hd]
    simp only [if_true]
    rw [ih fuel _ p (hm p (by simp)) (fun q hq => hm q (by simp [hq])) (by simpa using hl)]
    simp

theorem packed_count (f : List Nat) (m : List (List Nat)) : m.length < (packedBytes f m).length := by
  have : m.length ≤ (m.flatMap fun p => 0xf0 :: (p ++ [0xf7])).length := by
    induction m with
    | nil => simp
    | cons p m ih =>
      simp only [List.flatMap_cons, List.length_append, List.length_cons] at ih ⊢
      omega
  simp only [packedBytes, List.length_append, List.length_cons]
  omega

theorem readEvent_loose {e : Loose} (h : e.Valid) {prev : Option Nat} {run : Nat} (hp : ∀ s, prev = some s → run = s) (r : List Nat) :
    ∃ run', readEvent run (e.bytes prev ++ r) = (⟨e.told, none, r⟩, run') ∧ ∀ s, e.status = some s → run' = s := by
  cases e with
  | entry e => exact ⟨_, readEvent_entry h hp r, fun s hs => by
      simp only [Loose.status] at hs
      simp [hs]⟩
  | system d id data =>
    obtain ⟨h1, h2⟩ := h
    refine ⟨id, ?_, by simp [Loose.status]⟩
    have hs : messageSize id = data.length + 1 ∧ 0xf1 ≤ id ∧ id ≠ 0xff ∧ id ≠ 0xf7 := by
      rcases h2 with ⟨rfl | rfl, h2⟩ | ⟨rfl, h2⟩ | ⟨⟨h2, h3, h4⟩, rfl⟩
      · rw [h2]; decide
      · rw [h2]; decide
      · rw [h2]; decide
      · interval_cases id <;> first | decide | exact absurd rfl h4
    simp only [Loose.bytes, List.append_assoc, List.cons_append, readEvent]
    rw [readVlq_vlq h1]
    simp only
    rw [if_neg hs.2.2.1, if_neg hs.2.2.2, if_neg (by omega), if_pos (by omega)]
    unfold readMessage
    rw [hs.1, if_neg (by omega), Nat.add_sub_cancel, readN_append]
    rfl
  | packed d f m =>
    obtain ⟨h1, h2, h3, h4⟩ := h
    refine ⟨run, ?_, by simp [Loose.status]⟩
    have e : (Loose.packed d f m).bytes prev ++ r = vlq d ++ (0xf0 :: (vlq (packedBytes f m).length ++ (packedBytes f m ++ r))) := by
      simp [Loose.bytes]
    rw [e]
    unfold readEvent
    rw [readVlq_vlq h1]
    simp only
    rw [if_neg (by decide), if_neg (by decide), if_pos trivial]
    unfold readSysex
    rw [readVlq_vlq h2]
    simp only
    rw [readN_append]
    simp only
    rw [first_packed d r m _ _ f h3 h4 (by have := packed_count f m; omega)]
    simp [Loose.told]
  | parts d f m ld l =>
    obtain ⟨h1, h2, h3, h4, h5⟩ := h
    have e : (Loose.parts d f m ld l).bytes prev ++ r = vlq d ++ (0xf0 :: (vlq f.length ++ (f ++
        ((m.flatMap fun q => vlq q.1 ++ (0xf7 :: (vlq q.2.length ++ q.2))) ++
            (vlq ld ++ (0xf7 :: (vlq (l.length + 1) ++ (l ++ [0xf7])))) ++ r)))) := by
      simp [Loose.bytes]
    refine ⟨run, ?_, by simp [Loose.status]⟩
    rw [e]
    unfold readEvent
    rw [readVlq_vlq h1]
    simp only
    rw [if_neg (by decide), if_neg (by decide), if_pos trivial]
    unfold readSysex
    rw [readVlq_vlq (by have := h2.1; omega)]
    simp only
    rw [readN_append]
    simp only
    unfold sysexFirst
    rw [if_neg (part_no_end h2.2), more_parts h4 h5 r m _ _ h3]
    · simp [Loose.told]
    · have := parts_count m
      simp only [List.length_append]
      omega

theorem loose_notEnd {e : Loose} (h : e.Valid) : (e.told.getLast?.map isEnd).getD false = false := by
  cases e with
  | entry e => exact told_notEnd h.2 _
  | packed d f m =>
    simp only [Loose.told]
    rw [List.getLast?_map]
    cases (f :: m).getLast? <;> simp [isEnd]
  | parts d f m ld l => simp [Loose.told, isEnd]
  | system d id data => simp [Loose.told, isEnd]

theorem repeats_stop {r : List Nat} (hr : r = [] ∨ (∃ q, r = 0x4d :: 0x54 :: q) ∨ ∃ k q, r = 0x00 :: 0xff :: k :: q ∧ k ≠ 0x2f ∧ k ≠ 0x3f) (f : Nat) :
    repeats (f + 1) r = some r := by
  rcases hr with rfl | ⟨q, rfl⟩ | ⟨k, q, rfl, h1, h2⟩
  · simp [repeats, readVlq, vlqLoop]
  · unfold repeats
    simp only [readVlq, vlqLoop]
    rw [if_pos (by decide)]
    simp only
    cases q <;> simp
  · unfold repeats
    simp only [readVlq, vlqLoop]
    rw [if_pos (by decide)]
    simp [h1, h2]

theorem repeats_further {r : List Nat} (hr : ∀ f, repeats (f + 1) r = some r) (l : List (Nat × Bool)) : ∀ f, (∀ e ∈ l, e.1 < 268435456) →
    l.length < f → repeats f (furtherEnds l ++ r) = some r := by
  induction l with
  | nil =>
    intro f _ hf
    obtain ⟨f, rfl⟩ : ∃ g, f = g + 1 := ⟨f - 1, by simp at hf; omega⟩
    exact hr f
  | cons e l ih =>
    intro f h hf
    obtain ⟨f, rfl⟩ : ∃ g, f = g + 1 := ⟨f - 1, by simp at hf; omega⟩
    have e1 : furtherEnds (e :: l) ++ r = vlq e.1 ++ (0xff :: (if e.2 then 0x3f else 0x2f) :: 0 :: (furtherEnds l ++ r)) := by
      simp [furtherEnds]
    rw [e1]
    unfold repeats
    rw [readVlq_vlq (h e (by simp))]
    simp only
    rw [if_pos (by cases e.2 <;> simp)]
    simp only [if_true]
    exact ih f (fun x hx => h x (by simp [hx])) (by simpa using hf)

theorem further_count (l : List (Nat × Bool)) : l.length ≤ (furtherEnds l).length := by
  induction l with
  | nil => simp
  | cons e l ih =>
    simp only [furtherEnds, List.flatMap_cons, List.length_append, List.length_cons] at ih ⊢
    omega

theorem loose_pos {e : Loose} (prev : Option Nat) : 0 < (e.bytes prev).length := by
  cases e with
  | entry e => exact bytes_length e prev
  | parts d f m ld l => simp [Loose.bytes]
  | system d id data => simp [Loose.bytes]
  | packed d f m => simp [Loose.bytes]

theorem loose_count (es : List Loose) : ∀ prev, es.length ≤ (looseEntries prev es).length := by
  induction es with
  | nil => simp
  | cons e es ih =>
    intro prev
    have := ih e.status
    have := loose_pos (e := e) prev
    simp only [looseEntries, List.length_cons, List.length_append]
    omega

theorem events_loose {next : Option (List Nat)} {r n : List Nat} (hn : ∀ m, next = some m → m.length ≤ r.length)
    (hr : ∀ f, repeats (f + 1) r = some r) {last : Nat} (hl : last < 268435456) {ends : List (Nat × Bool)} (hends : ∀ e ∈ ends, e.1 < 268435456)
    (es : List Loose) :
    ∀ (prev : Option Nat) (run fuel : Nat) (acc : List Raw), (∀ e ∈ es, e.Valid) → (∀ s, prev = some s → run = s) → es.length < fuel →
    ∃ run', events next fuel run acc (looseEntries prev es ++ (vlq last ++ ([0xff, 0x2f, 0] ++ (furtherEnds ends ++ r)))) =
      .ended (acc ++ (es.flatMap Loose.told ++ [⟨last, .metaEvent, [0x2f]⟩])) run' r := by
  induction es with
  | nil =>
    intro prev run fuel acc _ _ hf
    obtain ⟨f, rfl⟩ : ∃ f, fuel = f + 1 := ⟨fuel - 1, by simp at hf; omega⟩
    refine ⟨run, ?_⟩
    have e : readEvent run (vlq last ++ ([0xff, 0x2f, 0] ++ (furtherEnds ends ++ r))) = (⟨[⟨last, .metaEvent, [0x2f]⟩], none, r⟩, run) := by
      unfold readEvent
      rw [readVlq_vlq hl]
      simp only [List.cons_append, List.nil_append, if_true, readMeta]
      rw [if_pos (by simp)]
      rw [repeats_further hr ends _ hends (by
        have := further_count ends
        simp only [List.length_append]; omega)]
    rw [looseEntries, List.nil_append]
    simp only [events, e]
    simp only [List.getLast?_singleton, Option.map_some, Option.getD_some]
    rw [if_neg]
    · simp [isEnd]
    · cases hx : next with
      | none => simp [overlap]
      | some m => simpa [overlap] using hn m hx
  | cons e es ih =>
    intro prev run fuel acc hv hp hf
    obtain ⟨f, rfl⟩ : ∃ f, fuel = f + 1 := ⟨fuel - 1, by simp at hf; omega⟩
    have he := hv e (by simp)
    obtain ⟨run1, g1, g2⟩ := readEvent_loose he hp
      (looseEntries e.status es ++ (vlq last ++ ([0xff, 0x2f, 0] ++ (furtherEnds ends ++ r))))
    obtain ⟨run', h⟩ := ih e.status run1 f (acc ++ e.told) (fun x hx => hv x (by simp [hx])) g2 (by simpa using hf)
    refine ⟨run', ?_⟩
    simp only [looseEntries, List.append_assoc, events]
    rw [g1]
    simp only [loose_notEnd he]
    rw [if_neg, if_neg (by simp), h]
    · simp
    · cases hx : next with
      | none => simp [overlap]
      | some m =>
        have := hn m hx
        simp [overlap]
        omega

theorem after_bytes (a : Nat × List Nat) (l : List (Nat × List Nat)) (n : List Nat) :
    afterBytes (a :: l) ++ n = Entry.bytes none ⟨0, .text a.1 a.2, false⟩ ++ (afterBytes l ++ n) := by
  simp [afterBytes, Entry.bytes, Item.bytes, vlq]

theorem after_texts {next : Option (List Nat)} {n : List Nat} (hn : ∀ m, next = some m → m.length ≤ n.length) (hs : ¬ n.take 2 = [0x00, 0xff])
    (l : List (Nat × List Nat)) : ∀ (f run : Nat) (acc : List Raw), (∀ a ∈ l, (Item.text a.1 a.2).Valid) → l.length < f →
    afterEnd next f run acc false (afterBytes l ++ n) = .ok (acc ++ l.map (fun a => ⟨0, .metaEvent, a.1 :: a.2⟩), run, n, false) := by
  induction l with
  | nil =>
    intro f run acc _ hf
    obtain ⟨f, rfl⟩ : ∃ g, f = g + 1 := ⟨f - 1, by simp at hf; omega⟩
    simp [afterBytes, afterEnd, hs]
  | cons a l ih =>
    intro f run acc h hf
    obtain ⟨f, rfl⟩ : ∃ g, f = g + 1 := ⟨f - 1, by simp at hf; omega⟩
    have ht : (afterBytes (a :: l) ++ n).take 2 = [0x00, 0xff] := by simp [afterBytes]
    unfold afterEnd
    rw [if_pos ht, after_bytes, readEvent_entry (e := ⟨0, .text a.1 a.2, false⟩) ⟨by simp, h a (by simp)⟩ (by simp)]
    simp only [Item.status, Option.getD_none, Item.told]
    rw [if_neg, ih f run _ (fun x hx => h x (by simp [hx])) (by simpa using hf)]
    · simp
    · cases hx : next with
      | none => simp [overlap]
      | some m =>
        have := hn m hx
        simp [overlap]
        omega

theorem after_count (l : List (Nat × List Nat)) : l.length ≤ (afterBytes l).length := by
  induction l with
  | nil => simp
  | cons e l ih =>
    simp only [afterBytes, List.flatMap_cons, List.length_append, List.length_cons] at ih ⊢
    omega

theorem readTrack_sloppy {t : Sloppy} (h : t.Valid) (run : Nat) {n : List Nat} (hn : Follows n) (hp : Plain t n) :
    ∃ run', readTrack run t.claimed (t.body ++ n) = .ok (t.told, some (run', n)) := by
  have hnext : nextTrack t.claimed (t.body ++ n) = some n ∨ nextTrack t.claimed (t.body ++ n) = none := by
    unfold nextTrack
    rcases hp with hp | hp | hp
    · left
      rw [hp, readN_append]
      simp only
      rw [if_pos]
      rcases hn with rfl | ⟨r, rfl⟩
      · simp
      · right; simp [trackMagic]
    · right
      rw [show readN t.claimed (t.body ++ n) = none from if_neg (by omega)]
    · right
      unfold readN
      split
      · rfl
      · rename_i h1
        split at h1
        · simp only [Option.some.injEq, Prod.mk.injEq] at h1
          rw [if_neg]
          rw [← h1.2]
          exact not_or.mpr hp
        · simp at h1
  have hm : ∀ m, nextTrack t.claimed (t.body ++ n) = some m → m = n := by
    intro m hm
    rcases hnext with e | e
    · rw [e] at hm; exact (Option.some.inj hm).symm
    · rw [e] at hm; simp at hm
  obtain ⟨h1, h2, h3, h4, h5⟩ := h
  have hstop : ∀ f, repeats (f + 1) (afterBytes t.after ++ n) = some (afterBytes t.after ++ n) := by
    refine repeats_stop ?_
    cases ha : t.after with
    | nil =>
      rcases hn with rfl | ⟨r, rfl⟩
      · left; simp [afterBytes]
      · right; left; exact ⟨0x72 :: 0x6b :: r, by simp [afterBytes]⟩
    | cons a l =>
      right; right
      obtain ⟨_, g1, g2, _⟩ := h4 a (by simp [ha])
      exact ⟨a.1, _, by simp [afterBytes]; rfl, g1, g2⟩
  have hb : t.body ++ n = looseEntries none t.entries ++ (vlq t.last ++ ([0xff, 0x2f, 0] ++ (furtherEnds t.ends ++ (afterBytes t.after ++ n)))) := by
    simp [Sloppy.body]
  obtain ⟨run', he⟩ := events_loose (next := nextTrack t.claimed (t.body ++ n)) (n := n) (r := afterBytes t.after ++ n)
    (fun m hm' => by rw [hm m hm']; simp) hstop h2 h3 t.entries none run ((t.body ++ n).length + 1) [] h1 (by simp) (by
      have := loose_count t.entries none
      rw [hb]
      simp only [List.length_append]
      omega)
  refine ⟨run', ?_⟩
  unfold readTrack
  rw [← hb] at he
  rw [he]
  simp only [List.nil_append]
  rw [after_texts (fun m hm' => by rw [hm m hm']) (by rcases hn with rfl | ⟨r, rfl⟩ <;> simp) t.after _ _ _ h4 (by
    have := after_count t.after
    simp only [List.length_append]; omega)]
  simp only [Bool.false_eq_true, if_false, Except.ok.injEq, Prod.mk.injEq, Option.some.injEq, true_and]
  refine ⟨rfl, ?_⟩
  rcases hnext with e | e <;> rw [e] <;> rfl

theorem follows_sloppy (ts : List Sloppy) : Follows (ts.flatMap Sloppy.bytes) := by
  cases ts with
  | nil => left; rfl
  | cons t ts => right; exact ⟨_, by simp [Sloppy.bytes]; rfl⟩

theorem readTracks_sloppy (ts : List Sloppy) : ∀ run, (∀ t ∈ ts, t.Valid) → AllPlain ts →
    readTracks ts.length run (ts.flatMap Sloppy.bytes) = .ok (ts.map Sloppy.told) := by
  induction ts with
  | nil => intro run _ _; rfl
  | cons t ts ih =>
    intro run h hp
    have ht := h t (by simp)
    obtain ⟨run', h1⟩ := readTrack_sloppy ht run (follows_sloppy ts) hp.1
    have h2 := ih run' (fun x hx => h x (by simp [hx])) hp.2
    have e : (t :: ts).flatMap Sloppy.bytes = [0x4d, 0x54, 0x72, 0x6b] ++ (be4 t.claimed ++ (t.body ++ ts.flatMap Sloppy.bytes)) := by
      simp [Sloppy.bytes]
    rw [e]
    simp only [List.length_cons, readTracks]
    rw [show readN 4 _ = _ from readN_append [0x4d, 0x54, 0x72, 0x6b] _]
    simp only [trackMagic, if_true]
    rw [readBE_be4 ht.2.2.2.2]
    simp only [h1, h2]
    rfl

theorem findHead_junk (r : List Nat) (junk : List Nat) : (∀ i < junk.length, ((junk ++ [0x4d, 0x54, 0x68, 0x64]).drop i).take 4 ≠ [0x4d, 0x54, 0x68, 0x64]) →
    findHead (junk ++ ([0x4d, 0x54, 0x68, 0x64] ++ r)) = some r := by
  induction junk with
  | nil => intro _; simp [findHead, fileMagic]
  | cons b l ih =>
    intro h
    have h0 := h 0 (by simp)
    rw [List.cons_append]
    unfold findHead
    rw [if_neg, ih]
    · intro i hi
      have := h (i + 1) (by simpa using hi)
      simpa using this
    · intro hc
      apply h0
      have e : b :: (l ++ ([0x4d, 0x54, 0x68, 0x64] ++ r)) = (b :: l ++ [0x4d, 0x54, 0x68, 0x64]) ++ r := by simp
      rw [e, List.take_append_of_le_length (by simp)] at hc
      simpa [fileMagic] using hc

/-! ### C151 -/

/-- **C151.** A loosely written file is read in full: bytes before the file header are skipped when the mark of the header is not among them, bytes
added to the header are skipped, tracks are found although their lengths are wrong, further ends of a track are dropped, and a sysex message in
parts is one message, and several in one are several. Missing: a wrong length by which a track or the end of the file is found at a wrong place. -/
theorem loose_read_partial {junk more : List Nat} {format unit : Nat} {tracks : List Sloppy} (hj : ∀ i < junk.length,
      ((junk ++ [0x4d, 0x54, 0x68, 0x64]).drop i).take 4 ≠ [0x4d, 0x54, 0x68, 0x64]) (hm : 6 + more.length < 4294967296)
    (hf : format < 65536) (hu : unit < 65536) (h1 : tracks ≠ []) (h2 : tracks.length < 65536) (h : ∀ t ∈ tracks, t.Valid) (hp : AllPlain tracks) :
    readFile (wrapped junk more format unit tracks) = .ok ⟨format, unit, tracks.map Sloppy.told⟩ := by
  have hpos : 0 < tracks.length := List.length_pos_iff.mpr h1
  unfold readFile wrapped
  rw [findHead_junk _ _ hj]
  simp only
  rw [readBE_be4 hm]
  simp only
  rw [readBE_be2 hf]
  simp only
  rw [readBE_be2 h2]
  simp only
  rw [readBE_be2 hu]
  simp only
  rw [if_neg (by omega), Nat.add_sub_cancel_left, readN_append]
  simp only [readTracks_sloppy tracks 0 h hp]

/-- A file inside of another, its header longer than usual, with a track whose length is far too large, with a sysex message in three parts, ended
twice, and a second track, with a length that is too small and a text after its end. -/
def looseFile : List Sloppy :=
  [⟨[.entry ⟨0, .channel (.noteOn 0 60 100), false⟩, .parts 10 [0x43, 0x12] [(5, [1]), (7, [])] 300 [2], .system 1 0xf2 [3, 4], .system 0 0xfe [],
      .packed 2 [9] [[], [8, 7]], .entry ⟨20, .channel (.noteOn 0 60 0), false⟩], 5, [(0, false), (130, true)], [], 4000⟩,
   ⟨[.entry ⟨96, .tempo 500000, false⟩], 0, [], [(1, [72, 105])], 3⟩]

def looseJunk : List Nat := [0x52, 0x49, 0x46, 0x46, 0x4d, 0x54]

theorem loose_valid : ∀ t ∈ looseFile, t.Valid := by
  intro t ht
  simp only [looseFile, List.mem_cons, List.not_mem_nil, or_false] at ht
  rcases ht with rfl | rfl <;> refine ⟨?_, by simp, by simp, by simp [Item.Valid], by simp⟩ <;> intro e he <;>
    simp only [List.mem_cons, List.not_mem_nil, or_false] at he
  · rcases he with rfl | rfl | rfl | rfl | rfl | rfl <;> simp [Loose.Valid, Part, packedBytes, Entry.Valid, Item.Valid, Clients.Message.Valid]
  · rcases he with rfl
    simp [Loose.Valid, Entry.Valid, Item.Valid]

theorem loose_plain : AllPlain looseFile := by
  refine ⟨Or.inr (Or.inl (by decide +kernel)), Or.inr (Or.inr (by decide +kernel)), trivial⟩

example : readFile (wrapped looseJunk [9, 9, 9] 1 480 looseFile) = .ok ⟨1, 480, looseFile.map Sloppy.told⟩ :=
  loose_read_partial (by decide +kernel) (by simp) (by omega) (by omega) (by simp [looseFile]) (by simp [looseFile]) loose_valid loose_plain

example : looseFile.map Sloppy.told = [[⟨0, .message, [0x90, 60, 100]⟩, ⟨10, .message, [0xf0, 0x43, 0x12, 1, 2, 0xf7]⟩,
    ⟨1, .message, [0xf2, 3, 4]⟩, ⟨0, .message, [0xfe]⟩, ⟨2, .message, [0xf0, 9, 0xf7]⟩, ⟨2, .message, [0xf0, 0xf7]⟩,
    ⟨2, .message, [0xf0, 8, 7, 0xf7]⟩, ⟨20, .message, [0x90, 60, 0]⟩, ⟨5, .metaEvent, [0x2f]⟩],
    [⟨96, .metaEvent, [0x51, 7, 161, 32]⟩, ⟨0, .metaEvent, [0x2f]⟩, ⟨0, .metaEvent, [1, 72, 105]⟩]] := by decide +kernel

/-- What is missing in `loose_read_partial`: a length, wrong by accident, that leads to the end of the file makes the reader skip a track. -/
theorem length_violated : ∃ tracks : List Sloppy, (∀ t ∈ tracks, t.Valid) ∧ tracks.length = 2 ∧
    readFile (wrapped [] [] 1 480 tracks) = .ok ⟨1, 480, (tracks.take 1).map Sloppy.told⟩ := by
  refine ⟨[⟨[], 0, [], [], 16⟩, ⟨[], 0, [], [], 4⟩], ?_, rfl, by decide +kernel⟩
  intro t ht
  simp only [List.mem_cons, List.not_mem_nil, or_false] at ht
  rcases ht with rfl | rfl <;> simp [Sloppy.Valid]

/-- The time before several sysex messages in one counts for each of them: what follows comes too late. Here a note written 10 ticks after the
start is read at 20. -/
theorem packed_violated : ∃ t : Sloppy, t.Valid ∧ t.entries = [.packed 10 [1] [[2]], .entry ⟨0, .channel (.noteOn 0 60 100), false⟩] ∧
    readFile (wrapped [] [] 0 480 [t]) = .ok ⟨0, 480, [[⟨10, .message, [0xf0, 1, 0xf7]⟩, ⟨10, .message, [0xf0, 2, 0xf7]⟩,
      ⟨0, .message, [0x90, 60, 100]⟩, ⟨0, .metaEvent, [0x2f]⟩]]⟩ := by
  refine ⟨⟨_, 0, [], [], 16⟩, ⟨?_, by simp, by simp, by simp, by simp⟩, rfl, by decide +kernel⟩
  intro e he
  simp only [List.mem_cons, List.not_mem_nil, or_false] at he
  rcases he with rfl | rfl <;> simp [Loose.Valid, packedBytes, Entry.Valid, Item.Valid, Clients.Message.Valid]

/-- A file that promises no track, or whose header is too short, is refused. -/
theorem header_refused {format unit n len : Nat} (hf : format < 65536) (hu : unit < 65536) (hn : n < 65536) (hl : len < 4294967296)
    (h : n = 0 ∨ len < 6) (rest : List Nat) :
    readFile ([0x4d, 0x54, 0x68, 0x64] ++ (be4 len ++ (be2 format ++ (be2 n ++ (be2 unit ++ rest))))) = .error .format := by
  unfold readFile
  have := findHead_junk (be4 len ++ (be2 format ++ (be2 n ++ (be2 unit ++ rest)))) [] (by simp)
  rw [List.nil_append] at this
  rw [this]
  simp only
  rw [readBE_be4 hl]
  simp only
  rw [readBE_be2 hf]
  simp only
  rw [readBE_be2 hn]
  simp only
  rw [readBE_be2 hu]
  simp only
  rw [if_pos (by omega)]

example : readFile ([0x4d, 0x54, 0x68, 0x64] ++ (be4 5 ++ (be2 1 ++ (be2 3 ++ (be2 480 ++ [0x4d, 0x54, 0x72, 0x6b]))))) = .error .format :=
  header_refused (by omega) (by omega) (by omega) (by omega) (Or.inr (by omega)) _

/-! ### Broken tracks -/

/-- A track of which only the first events can be read: after them comes a time of more than four bytes. -/
structure Broken where
  entries : List Loose
  junk : List Nat
deriving DecidableEq, Repr

def Broken.body (t : Broken) : List Nat := looseEntries none t.entries ++ t.junk

def Broken.Valid (t : Broken) : Prop :=
  (∀ e ∈ t.entries, e.Valid) ∧ t.body.length < 4294967296 ∧ ∃ a b c d r, t.junk = a :: b :: c :: d :: r ∧ 128 ≤ a ∧ 128 ≤ b ∧ 128 ≤ c ∧ 128 ≤ d

def Broken.bytes (t : Broken) : List Nat := [0x4d, 0x54, 0x72, 0x6b] ++ be4 t.body.length ++ t.body

theorem events_broken {next : Option (List Nat)} {r : List Nat} (hn : ∀ m, next = some m → m.length ≤ r.length)
    (hr : readVlq r = .error .format) (es : List Loose) :
    ∀ (prev : Option Nat) (run fuel : Nat) (acc : List Raw), (∀ e ∈ es, e.Valid) → (∀ s, prev = some s → run = s) → es.length < fuel →
    ∃ run', events next fuel run acc (looseEntries prev es ++ r) = .stopped .format (acc ++ es.flatMap Loose.told) run' r := by
  induction es with
  | nil =>
    intro prev run fuel acc _ _ hf
    obtain ⟨f, rfl⟩ : ∃ f, fuel = f + 1 := ⟨fuel - 1, by simp at hf; omega⟩
    exact ⟨run, by simp [looseEntries, events, readEvent, hr]⟩
  | cons e es ih =>
    intro prev run fuel acc hv hp hf
    obtain ⟨f, rfl⟩ : ∃ f, fuel = f + 1 := ⟨fuel - 1, by simp at hf; omega⟩
    have he := hv e (by simp)
    obtain ⟨run1, g1, g2⟩ := readEvent_loose he hp (looseEntries e.status es ++ r)
    obtain ⟨run', h⟩ := ih e.status run1 f (acc ++ e.told) (fun x hx => hv x (by simp [hx])) g2 (by simpa using hf)
    refine ⟨run', ?_⟩
    simp only [looseEntries, List.append_assoc, events]
    rw [g1]
    simp only [loose_notEnd he]
    rw [if_neg, if_neg (by simp), h]
    · simp
    · cases hx : next with
      | none => simp [overlap]
      | some m =>
        have := hn m hx
        simp [overlap]
        omega

theorem readTrack_broken {t : Broken} (h : t.Valid) (run : Nat) {n : List Nat} (hn : Follows n) :
    ∃ run', readTrack run t.body.length (t.body ++ n) = .ok (t.entries.flatMap Loose.told, some (run', n)) := by
  have hnext : nextTrack t.body.length (t.body ++ n) = some n := by
    unfold nextTrack
    rw [readN_append]
    simp only
    rw [if_pos]
    rcases hn with rfl | ⟨r, rfl⟩
    · simp
    · right; simp [trackMagic]
  obtain ⟨h1, _, a, b, c, d, r, hj, ha, hb, hc, hd⟩ := h
  have hv : readVlq (t.junk ++ n) = .error .format := by
    rw [hj]
    simp only [List.cons_append, readVlq, vlqLoop]
    rw [if_neg (by omega), if_neg (by omega), if_neg (by omega), if_neg (by omega)]
  obtain ⟨run', he⟩ := events_broken (next := some n) (r := t.junk ++ n) (by simp) hv t.entries none run ((t.body ++ n).length + 1) [] h1
    (by simp) (by
      have := loose_count t.entries none
      simp only [Broken.body, List.length_append]
      omega)
  refine ⟨run', ?_⟩
  unfold readTrack
  rw [hnext, show t.body ++ n = looseEntries none t.entries ++ (t.junk ++ n) by simp [Broken.body]] at *
  rw [he]
  simp only [List.nil_append, hv]

/-- A loosely written track or a broken one. -/
inductive Track
  | whole (t : Sloppy)
  | broken (t : Broken)

def Track.bytes : Track → List Nat
  | .whole t => t.bytes
  | .broken t => t.bytes

def Track.told : Track → List Raw
  | .whole t => t.told
  | .broken t => t.entries.flatMap Loose.told

/-- As it may be before the bytes `rest`. -/
def Track.Valid (rest : List Nat) : Track → Prop
  | .whole t => t.Valid ∧ Plain t rest
  | .broken t => t.Valid

def AllValid : List Track → Prop
  | [] => True
  | t :: ts => t.Valid (ts.flatMap Track.bytes) ∧ AllValid ts

theorem readTracks_broken (ts : List Track) : ∀ run, AllValid ts →
    readTracks ts.length run (ts.flatMap Track.bytes) = .ok (ts.map Track.told) := by
  induction ts with
  | nil => intro run _; rfl
  | cons t ts ih =>
    intro run h
    have hfollow : Follows (ts.flatMap Track.bytes) := by
      rcases ts with _ | ⟨t | t, ts⟩
      · left; rfl
      · right; exact ⟨_, by simp [Track.bytes, Sloppy.bytes]; rfl⟩
      · right; exact ⟨_, by simp [Track.bytes, Broken.bytes]; rfl⟩
    obtain ⟨len, body, e, hlen, run', h1⟩ : ∃ len body, t.bytes ++ ts.flatMap Track.bytes = [0x4d, 0x54, 0x72, 0x6b] ++ (be4 len ++
        (body ++ ts.flatMap Track.bytes)) ∧ len < 4294967296 ∧
        ∃ run', readTrack run len (body ++ ts.flatMap Track.bytes) = .ok (t.told, some (run', ts.flatMap Track.bytes)) := by
      cases t with
      | whole t => exact ⟨t.claimed, t.body, by simp [Track.bytes, Sloppy.bytes], h.1.1.2.2.2.2, readTrack_sloppy h.1.1 run hfollow h.1.2⟩
      | broken t => exact ⟨t.body.length, t.body, by simp [Track.bytes, Broken.bytes], h.1.2.1, readTrack_broken h.1 run hfollow⟩
    have h2 := ih run' h.2
    rw [List.flatMap_cons, e]
    simp only [List.length_cons, readTracks]
    rw [show readN 4 _ = _ from readN_append [0x4d, 0x54, 0x72, 0x6b] _]
    simp only [trackMagic, if_true]
    rw [readBE_be4 hlen]
    simp only [h1, h2]
    rfl

/-- **C151.** A track that breaks off in a time that is too long costs only what follows in it: its events before and all the other tracks are
read. Missing: other damage inside of a track, for which the file is refused (`status_refused`). -/
theorem broken_read_partial {format unit : Nat} {tracks : List Track} (hf : format < 65536) (hu : unit < 65536) (h1 : tracks ≠ [])
    (h2 : tracks.length < 65536) (h : AllValid tracks) :
    readFile ([0x4d, 0x54, 0x68, 0x64] ++ (be4 6 ++ (be2 format ++ (be2 tracks.length ++ (be2 unit ++ tracks.flatMap Track.bytes))))) =
      .ok ⟨format, unit, tracks.map Track.told⟩ := by
  have hpos : 0 < tracks.length := List.length_pos_iff.mpr h1
  unfold readFile
  have := findHead_junk (be4 6 ++ (be2 format ++ (be2 tracks.length ++ (be2 unit ++ tracks.flatMap Track.bytes)))) [] (by simp)
  rw [List.nil_append] at this
  rw [this]
  simp only
  rw [readBE_be4 (by omega)]
  simp only
  rw [readBE_be2 hf]
  simp only
  rw [readBE_be2 h2]
  simp only
  rw [readBE_be2 hu]
  simp only
  rw [if_neg (by omega), show (6 : Nat) - 6 = ([] : List Nat).length from rfl, show tracks.flatMap Track.bytes = [] ++ tracks.flatMap Track.bytes from rfl,
    readN_append]
  simp only [readTracks_broken tracks 0 h]

example : readFile ([0x4d, 0x54, 0x68, 0x64] ++ (be4 6 ++ (be2 1 ++ (be2 2 ++ (be2 480 ++
    [Track.broken ⟨[.entry ⟨3, .channel (.noteOn 0 60 100), false⟩], [255, 255, 255, 255, 255]⟩,
      .whole ⟨[.entry ⟨96, .tempo 500000, false⟩], 0, [], [], 11⟩].flatMap Track.bytes))))) =
    .ok ⟨1, 480, [[⟨3, .message, [0x90, 60, 100]⟩], [⟨96, .metaEvent, [0x51, 7, 161, 32]⟩, ⟨0, .metaEvent, [0x2f]⟩]]⟩ := by
  refine broken_read_partial (tracks := [.broken _, .whole _]) (by omega) (by omega) (by simp) (by simp) ⟨⟨?_, by decide +kernel, ?_⟩, ⟨⟨?_, ?_⟩, ?_⟩, trivial⟩
  · simp [Loose.Valid, Entry.Valid, Item.Valid, Clients.Message.Valid]
  · exact ⟨255, 255, 255, 255, [255], rfl, by decide, by decide, by decide, by decide⟩
  · simp [Loose.Valid, Entry.Valid, Item.Valid]
  · simp
  · exact Or.inl (by decide +kernel)

/-- A file whose first event has no status byte is refused, whatever follows. -/
theorem status_refused {format unit n delta b : Nat} (hf : format < 65536) (hu : unit < 65536) (hn : 0 < n) (hn' : n < 65536)
    (hd : delta < 268435456) (hb : b < 128) {len : Nat} (hl : len < 4294967296) (rest : List Nat) :
    readFile ([0x4d, 0x54, 0x68, 0x64] ++ (be4 6 ++ (be2 format ++ (be2 n ++ (be2 unit ++ ([0x4d, 0x54, 0x72, 0x6b] ++ (be4 len ++
      (vlq delta ++ (b :: rest))))))))) = .error .format := by
  unfold readFile
  have := findHead_junk (be4 6 ++ (be2 format ++ (be2 n ++ (be2 unit ++ ([0x4d, 0x54, 0x72, 0x6b] ++ (be4 len ++
      (vlq delta ++ (b :: rest)))))))) [] (by simp)
  rw [List.nil_append] at this
  rw [this]
  simp only
  rw [readBE_be4 (by omega)]
  simp only
  rw [readBE_be2 hf]
  simp only
  rw [readBE_be2 hn']
  simp only
  rw [readBE_be2 hu]
  simp only
  obtain ⟨n, rfl⟩ : ∃ m, n = m + 1 := ⟨n - 1, by omega⟩
  rw [if_neg (by omega)]
  have hz : ∀ l : List Nat, readN (6 - 6) l = some ([], l) := by intro l; simp [readN]
  rw [hz]
  simp only [readTracks]
  rw [show readN 4 _ = _ from readN_append [0x4d, 0x54, 0x72, 0x6b] _]
  simp only [trackMagic, if_true]
  rw [readBE_be4 hl]
  simp only
  have hev : readEvent 0 (vlq delta ++ (b :: rest)) = (⟨[], some .format, b :: rest⟩, 0) := by
    unfold readEvent
    rw [readVlq_vlq hd]
    simp only
    rw [if_neg (by omega), if_neg (by omega), if_neg (by omega), if_neg (by omega)]
    simp [readMessage, messageSize]
  have ht : readTrack 0 len (vlq delta ++ (b :: rest)) = .error .format := by
    unfold readTrack
    simp only [events, hev, readVlq_vlq hd]
  rw [ht]

example : readFile ([0x4d, 0x54, 0x68, 0x64] ++ (be4 6 ++ (be2 0 ++ (be2 1 ++ (be2 96 ++ ([0x4d, 0x54, 0x72, 0x6b] ++ (be4 7 ++
    (vlq 0 ++ (60 :: [100, 0, 0xff, 0x2f, 0])))))))))  = .error .format :=
  status_refused (by omega) (by omega) (by omega) (by omega) (by omega) (by omega) (by omega) _

end Verif.MidiFile
