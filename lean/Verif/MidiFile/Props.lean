import Verif.MidiFile.Model
import Verif.Sequencer.Props

/-!
Property C151: MIDI files are read as they were written.
-/
namespace Verif.MidiFile

open Clients (Message)

/-! ### Specification: standard MIDI files -/

/-- A number below 2^28 in groups of seven bits, the highest first, all but the last marked by the highest bit. -/
def vlq (n : Nat) : List Nat :=
  if n < 128 then [n]
  else if n < 16384 then [128 + n / 128, n % 128]
  else if n < 2097152 then [128 + n / 16384, 128 + n / 128 % 128, n % 128]
  else [128 + n / 2097152, 128 + n / 16384 % 128, 128 + n / 128 % 128, n % 128]

/-- What an event says. -/
inductive Item
  | channel (m : Message)
  /-- Microseconds per quarter note. -/
  | tempo (micro : Nat)
  /-- Another meta event. -/
  | text (id : Nat) (data : List Nat)
  | sysex (data : List Nat)
  | escape (data : List Nat)
deriving DecidableEq, Repr

def Item.Valid : Item → Prop
  | .channel m => m.Valid
  | .tempo t => 0 < t ∧ t < 16777216
  | .text id d => id < 128 ∧ id ≠ 0x2f ∧ id ≠ 0x3f ∧ id ≠ 0x51 ∧ d.length < 268435456 ∧ ∀ b ∈ d, b < 256
  | .sysex d => d.length + 1 < 268435456 ∧ ∀ b ∈ d, b < 128
  | .escape d => d.length < 268435456 ∧ ∀ b ∈ d, b < 256

/-- The bytes of an event in a file. -/
def Item.bytes : Item → List Nat
  | .channel m => m.bytes
  | .tempo t => [0xff, 0x51, 3, t / 65536, t / 256 % 256, t % 256]
  | .text id d => 0xff :: id :: (vlq d.length ++ d)
  | .sysex d => 0xf0 :: (vlq (d.length + 1) ++ (d ++ [0xf7]))
  | .escape d => 0xf7 :: (vlq d.length ++ d)

/-- An event in a track: ticks from the event before, and whether the status byte is left out where the standard allows it. -/
structure Entry where
  delta : Nat
  item : Item
  short : Bool := false
deriving DecidableEq, Repr

def Entry.Valid (e : Entry) : Prop := e.delta < 268435456 ∧ e.item.Valid

/-- The running status that an event leaves: that of a channel message, none otherwise. -/
def Item.status : Item → Option Nat
  | .channel m => m.bytes.head?
  | _ => none

/-- The status byte may be left out after a message with the same one. -/
def Entry.bytes (prev : Option Nat) (e : Entry) : List Nat :=
  vlq e.delta ++ if e.short ∧ e.item.status.isSome ∧ e.item.status = prev then e.item.bytes.tail else e.item.bytes

def encodeEntries (prev : Option Nat) : List Entry → List Nat
  | [] => []
  | e :: es => e.bytes prev ++ encodeEntries e.item.status es

/-- A track: events, and the ticks from the last one to the end of the track. -/
structure Score where
  entries : List Entry
  last : Nat
deriving DecidableEq, Repr

def Score.body (t : Score) : List Nat := encodeEntries none t.entries ++ (vlq t.last ++ [0xff, 0x2f, 0])

def Score.Valid (t : Score) : Prop := (∀ e ∈ t.entries, e.Valid) ∧ t.last < 268435456 ∧ t.body.length < 4294967296

/-- Two bytes, the higher first. -/
def be2 (n : Nat) : List Nat := [n / 256, n % 256]

/-- Four bytes, the highest first. -/
def be4 (n : Nat) : List Nat := [n / 16777216, n / 65536 % 256, n / 256 % 256, n % 256]

/-- `MTrk`, the length, the events. -/
def Score.bytes (t : Score) : List Nat := [0x4d, 0x54, 0x72, 0x6b] ++ be4 t.body.length ++ t.body

/-- `MThd`, the length 6, the format, the number of tracks, the division, and the tracks. -/
def encodeFile (format unit : Nat) (tracks : List Score) : List Nat :=
  [0x4d, 0x54, 0x68, 0x64] ++ be4 6 ++ be2 format ++ be2 tracks.length ++ be2 unit ++ tracks.flatMap Score.bytes

/-- What is told of an event. -/
def Item.told (delta : Nat) : Item → Raw
  | .channel m => ⟨delta, .message, m.bytes⟩
  | .tempo t => ⟨delta, .metaEvent, [0x51, t / 65536, t / 256 % 256, t % 256]⟩
  | .text id d => ⟨delta, .metaEvent, id :: d⟩
  | .sysex d => ⟨delta, .message, 0xf0 :: (d ++ [0xf7])⟩
  | .escape d => ⟨delta, .escape, d⟩

def Score.told (t : Score) : List Raw := t.entries.map (fun e => e.item.told e.delta) ++ [⟨t.last, .metaEvent, [0x2f]⟩]

/-! ### Lemmas -/

theorem readVlq_vlq {n : Nat} (h : n < 268435456) (r : List Nat) : readVlq (vlq n ++ r) = .ok (n, r) := by
  unfold vlq
  split
  · rename_i h1
    simp [readVlq, vlqLoop, h1]
  · split
    · have e1 : ¬ 128 + n / 128 < 128 := by omega
      have e2 : n % 128 < 128 := by omega
      simp only [readVlq, List.cons_append, List.nil_append, vlqLoop, e1, e2, if_true, if_false]
      congr 2
      omega
    · split
      · have e1 : ¬ 128 + n / 16384 < 128 := by omega
        have e2 : ¬ 128 + n / 128 % 128 < 128 := by omega
        have e3 : n % 128 < 128 := by omega
        simp only [readVlq, List.cons_append, List.nil_append, vlqLoop, e1, e2, e3, if_true, if_false]
        congr 2
        omega
      · have e1 : ¬ 128 + n / 2097152 < 128 := by omega
        have e2 : ¬ 128 + n / 16384 % 128 < 128 := by omega
        have e3 : ¬ 128 + n / 128 % 128 < 128 := by omega
        have e4 : n % 128 < 128 := by omega
        simp only [readVlq, List.cons_append, List.nil_append, vlqLoop, e1, e2, e3, e4, if_true, if_false]
        congr 2
        omega

theorem readN_append (a r : List Nat) : readN a.length (a ++ r) = some (a, r) := by
  simp [readN]

theorem readMessage_bytes {m : Message} (h : m.Valid) (delta : Nat) (r : List Nat) :
    ∃ s d, m.bytes = s :: d ∧ 128 ≤ s ∧ s < 0xf0 ∧ (∃ b d', d = b :: d' ∧ b < 128) ∧
      readMessage delta s (d ++ r) = ⟨[⟨delta, .message, m.bytes⟩], none, r⟩ := by
  have size : ∀ c, c < 16 → messageSize (0x80 + c) = 3 ∧ messageSize (0x90 + c) = 3 ∧ messageSize (0xA0 + c) = 3 ∧
      messageSize (0xB0 + c) = 3 ∧ messageSize (0xC0 + c) = 2 ∧ messageSize (0xD0 + c) = 2 ∧ messageSize (0xE0 + c) = 3 := by
    decide
  cases m <;> simp only [Message.Valid] at h <;> obtain ⟨s0, s1, s2, s3, s4, s5, s6⟩ := size _ h.1 <;>
    refine ⟨_, _, rfl, by omega, by omega, ⟨_, _, rfl, by omega⟩, ?_⟩
  · simp [readMessage, Message.bytes, s0, readN]
  · simp [readMessage, Message.bytes, s1, readN]
  · simp [readMessage, Message.bytes, s2, readN]
  · simp [readMessage, Message.bytes, s3, readN]
  · simp [readMessage, Message.bytes, s4, readN]
  · simp [readMessage, Message.bytes, s5, readN]
  · simp [readMessage, Message.bytes, s6, readN]

theorem takeWhile_data {d : List Nat} (h : ∀ b ∈ d, b < 128) : (d ++ [0xf7]).takeWhile (· ≠ 0xf7) = d := by
  induction d with
  | nil => rfl
  | cons x d ih =>
    have hx := h x (by simp)
    rw [List.cons_append, List.takeWhile_cons, if_pos (by simp; omega), ih fun b hb => h b (by simp [hb])]

theorem readEvent_entry {e : Entry} (h : e.Valid) {prev : Option Nat} {run : Nat} (hp : ∀ s, prev = some s → run = s) (r : List Nat) :
    readEvent run (e.bytes prev ++ r) = (⟨[e.item.told e.delta], none, r⟩, e.item.status.getD run) := by
  obtain ⟨delta, item, short⟩ := e
  obtain ⟨hd, hi⟩ := h
  simp only at hd hi
  have whole : readEvent run (vlq delta ++ (item.bytes ++ r)) = (⟨[item.told delta], none, r⟩, item.status.getD run) := by
    unfold readEvent
    rw [readVlq_vlq hd]
    cases item with
    | channel m =>
      obtain ⟨s, d, h1, h2, h3, _, h4⟩ := readMessage_bytes (m := m) hi delta r
      simp only [Item.bytes, Item.told, Item.status]
      rw [h1] at h4 ⊢
      simp only [List.cons_append]
      rw [if_neg (by omega), if_neg (by omega), if_neg (by omega), if_pos h2, h4]
      rfl
    | tempo t => simp [Item.bytes, Item.told, Item.status, readMeta, readVlq, vlqLoop, readN]
    | text id d =>
      obtain ⟨h1, h2, h3, h4, h5, h6⟩ := hi
      simp only [Item.bytes, Item.told, Item.status, List.cons_append, List.append_assoc, if_true, readMeta, h2, h3, or_self, if_false]
      rw [readVlq_vlq h5, ]
      simp only [readN_append]
      rfl
    | sysex d =>
      obtain ⟨h1, h2⟩ := hi
      have e1 : readN (d.length + 1) (d ++ ([0xf7] ++ r)) = some (d ++ [0xf7], r) := by
        have := readN_append (d ++ [0xf7]) r
        simpa using this
      simp only [Item.bytes, Item.told, Item.status, List.cons_append, List.append_assoc, readSysex]
      rw [if_neg (by omega), if_neg (by omega), if_pos trivial, readVlq_vlq h1]
      simp only [List.cons_append, List.nil_append] at e1 ⊢
      rw [e1]
      simp only [sysexFirst, takeWhile_data h2]
      rw [if_pos (by simp)]
      simp
    | escape d =>
      obtain ⟨h1, h2⟩ := hi
      simp only [Item.bytes, Item.told, Item.status, List.cons_append, List.append_assoc, readEscape]
      rw [if_neg (by omega), if_pos trivial, readVlq_vlq h1]
      simp only [readN_append]
      rfl
  unfold Entry.bytes
  split
  · rename_i hs
    obtain ⟨_, hs1, hs2⟩ := hs
    simp only at hs1 hs2
    cases item with
    | channel m =>
      obtain ⟨s, d, h1, h2, h3, ⟨b, d', rfl, hb⟩, h4⟩ := readMessage_bytes (m := m) hi delta r
      have hrun : run = s := by
        apply hp
        rw [← hs2]
        simp [Item.status, h1]
      simp only [Item.bytes, h1, List.tail_cons, List.append_assoc]
      unfold readEvent
      rw [readVlq_vlq hd]
      simp only [List.cons_append, Item.told, Item.status, h1]
      rw [if_neg (by omega), if_neg (by omega), if_neg (by omega), if_neg (by omega), hrun]
      simp only [List.cons_append] at h4
      rw [h4, h1]
      rfl
    | _ => simp [Item.status] at hs1
  · rw [List.append_assoc]
    exact whole

/-- What may follow a track: nothing or another track. -/
def Follows (n : List Nat) : Prop := n = [] ∨ ∃ r, n = [0x4d, 0x54, 0x72, 0x6b] ++ r

theorem readEvent_end {t : Nat} (h : t < 268435456) (run : Nat) {n : List Nat} (hn : Follows n) :
    readEvent run (vlq t ++ ([0xff, 0x2f, 0] ++ n)) = (⟨[⟨t, .metaEvent, [0x2f]⟩], none, n⟩, run) := by
  unfold readEvent
  rw [readVlq_vlq h]
  rcases hn with rfl | ⟨r, rfl⟩
  · simp [readMeta, repeats, readVlq, vlqLoop]
  · simp [readMeta, repeats, readVlq, vlqLoop]

theorem told_notEnd {i : Item} (h : i.Valid) (delta : Nat) : isEnd (i.told delta) = false := by
  cases i <;> simp [Item.told, isEnd]
  simp only [Item.Valid] at h
  exact ⟨h.2.1, h.2.2.1⟩

theorem bytes_length (e : Entry) (prev : Option Nat) : 0 < (e.bytes prev).length := by
  unfold Entry.bytes vlq
  split <;> split <;> (try split) <;> (try split) <;> simp

theorem events_entries {n : List Nat} (hn : Follows n) {last : Nat} (hl : last < 268435456) (es : List Entry) :
    ∀ (prev : Option Nat) (run fuel : Nat) (acc : List Raw), (∀ e ∈ es, e.Valid) → (∀ s, prev = some s → run = s) → es.length < fuel →
    ∃ run', events (some n) fuel run acc (encodeEntries prev es ++ (vlq last ++ ([0xff, 0x2f, 0] ++ n))) =
      .ended (acc ++ (es.map (fun e => e.item.told e.delta) ++ [⟨last, .metaEvent, [0x2f]⟩])) run' n := by
  induction es with
  | nil =>
    intro prev run fuel acc _ _ hf
    obtain ⟨f, rfl⟩ : ∃ f, fuel = f + 1 := ⟨fuel - 1, by simp at hf; omega⟩
    refine ⟨run, ?_⟩
    simp only [encodeEntries, List.nil_append, events, readEvent_end hl run hn]
    simp [overlap, isEnd]
  | cons e es ih =>
    intro prev run fuel acc hv hp hf
    obtain ⟨f, rfl⟩ : ∃ f, fuel = f + 1 := ⟨fuel - 1, by simp at hf; omega⟩
    have he := hv e (by simp)
    obtain ⟨run', h⟩ := ih e.item.status (e.item.status.getD run) f (acc ++ [e.item.told e.delta]) (fun x hx => hv x (by simp [hx]))
      (by intro s hs; simp [hs]) (by simpa using hf)
    refine ⟨run', ?_⟩
    simp only [encodeEntries, List.append_assoc, events]
    rw [readEvent_entry he hp]
    simp only [List.getLast?_singleton, Option.map_some, Option.getD_some, told_notEnd he.2]
    rw [if_neg, if_neg (by simp), h]
    · simp
    · simp [overlap]
      omega

theorem readBE_be4 {n : Nat} (h : n < 4294967296) (r : List Nat) : readBE 4 (be4 n ++ r) = some (n, r) := by
  simp [readBE, readN, be4]
  omega

theorem readBE_be2 {n : Nat} (h : n < 65536) (r : List Nat) : readBE 2 (be2 n ++ r) = some (n, r) := by
  simp [readBE, readN, be2]
  omega

theorem entries_length (es : List Entry) : ∀ prev, es.length ≤ (encodeEntries prev es).length := by
  induction es with
  | nil => simp
  | cons e es ih =>
    intro prev
    have := ih e.item.status
    have := bytes_length e prev
    simp only [encodeEntries, List.length_cons, List.length_append]
    omega

theorem readTrack_score {t : Score} (h : t.Valid) (run : Nat) {n : List Nat} (hn : Follows n) :
    ∃ run', readTrack run t.body.length (t.body ++ n) = .ok (t.told, some (run', n)) := by
  have hnext : nextTrack t.body.length (t.body ++ n) = some n := by
    unfold nextTrack
    rw [readN_append]
    simp only
    rw [if_pos]
    rcases hn with rfl | ⟨r, rfl⟩
    · simp
    · right; simp [trackMagic]
  obtain ⟨h1, h2, h3⟩ := h
  obtain ⟨run', he⟩ := events_entries hn h2 t.entries none run ((t.body ++ n).length + 1) [] h1 (by simp) (by
    have := entries_length t.entries none
    simp only [Score.body, List.length_append]
    omega)
  have hb : t.body ++ n = encodeEntries none t.entries ++ (vlq t.last ++ ([0xff, 0x2f, 0] ++ n)) := by
    simp [Score.body]
  refine ⟨run', ?_⟩
  unfold readTrack
  rw [hnext]
  rw [hb] at he ⊢
  rw [he]
  simp only [List.nil_append]
  have stop : ¬ n.take 2 = [0x00, 0xff] := by rcases hn with rfl | ⟨r, rfl⟩ <;> simp
  simp only [afterEnd, stop, if_false]
  rfl

theorem follows_tracks (ts : List Score) : Follows (ts.flatMap Score.bytes) := by
  cases ts with
  | nil => left; rfl
  | cons t ts => right; exact ⟨_, by simp [Score.bytes]; rfl⟩

theorem readTracks_scores (ts : List Score) : ∀ run, (∀ t ∈ ts, t.Valid) →
    readTracks ts.length run (ts.flatMap Score.bytes) = .ok (ts.map Score.told) := by
  induction ts with
  | nil => intro run _; rfl
  | cons t ts ih =>
    intro run h
    have ht := h t (by simp)
    obtain ⟨run', h1⟩ := readTrack_score ht run (follows_tracks ts)
    have h2 := ih run' fun x hx => h x (by simp [hx])
    have e : (t :: ts).flatMap Score.bytes = [0x4d, 0x54, 0x72, 0x6b] ++ (be4 t.body.length ++ (t.body ++ ts.flatMap Score.bytes)) := by
      simp [Score.bytes]
    rw [e]
    simp only [List.length_cons, readTracks]
    rw [show readN 4 _ = _ from readN_append [0x4d, 0x54, 0x72, 0x6b] _]
    simp only [trackMagic, if_true]
    rw [readBE_be4 ht.2.2]
    simp only [h1, h2]
    rfl

/-! ### C151 -/

/-- A standard MIDI file of any number of tracks, with no system message in parts (`sysex_parts_violated`), is read as it was written: the format, the division, and in each track all events with
their times and data up to the end of the track. Whether status bytes are left out makes no difference. -/
theorem read_as_written_partial {format unit : Nat} (hf : format < 65536) (hu : unit < 65536) {tracks : List Score} (h1 : tracks ≠ [])
    (h2 : tracks.length < 65536) (h : ∀ t ∈ tracks, t.Valid) :
    readFile (encodeFile format unit tracks) = .ok ⟨format, unit, tracks.map Score.told⟩ := by
  have e : encodeFile format unit tracks = 0x4d :: ([0x54, 0x68, 0x64] ++
      (be4 6 ++ (be2 format ++ (be2 tracks.length ++ (be2 unit ++ tracks.flatMap Score.bytes))))) := by
    simp [encodeFile]
  have hpos : 0 < tracks.length := List.length_pos_iff.mpr h1
  unfold readFile
  rw [e]
  have : findHead (0x4d :: ([0x54, 0x68, 0x64] ++
      (be4 6 ++ (be2 format ++ (be2 tracks.length ++ (be2 unit ++ tracks.flatMap Score.bytes)))))) =
      some (be4 6 ++ (be2 format ++ (be2 tracks.length ++ (be2 unit ++ tracks.flatMap Score.bytes)))) := by
    unfold findHead
    rw [if_pos (by simp [fileMagic])]
    simp
  rw [this]
  simp only
  rw [readBE_be4 (by omega)]
  simp only
  rw [readBE_be2 hf]
  simp only
  rw [readBE_be2 h2]
  simp only
  rw [readBE_be2 hu]
  simp only
  rw [if_neg (by omega)]
  simp [readN, readTracks_scores tracks 0 h]

/-- Three tracks: tempo and text; notes with and without status bytes, a system message and a long pause; nothing. -/
def sampleFile : List Score :=
  [⟨[⟨0, .tempo 500000, false⟩, ⟨96, .text 1 [72, 105], false⟩], 0⟩,
   ⟨[⟨0, .channel (.noteOn 3 60 100), false⟩, ⟨10, .channel (.noteOn 3 64 100), true⟩, ⟨0, .sysex [0x7e, 1], false⟩,
     ⟨20000, .channel (.noteOn 3 60 0), true⟩, ⟨0, .channel (.bend 3 8192), false⟩, ⟨3, .escape [0xf8], false⟩], 200⟩,
   ⟨[], 0⟩]

example : encodeFile 1 480 sampleFile = [
    0x4d, 0x54, 0x68, 0x64, 0, 0, 0, 6, 0, 1, 0, 3, 1, 224,
    0x4d, 0x54, 0x72, 0x6b, 0, 0, 0, 17, 0, 0xff, 0x51, 3, 7, 161, 32, 96, 0xff, 1, 2, 72, 105, 0, 0xff, 0x2f, 0,
    0x4d, 0x54, 0x72, 0x6b, 0, 0, 0, 32, 0, 0x93, 60, 100, 10, 64, 100, 0, 0xf0, 3, 0x7e, 1, 0xf7, 129, 156, 32, 0x93, 60, 0,
      0, 0xe3, 0, 64, 3, 0xf7, 1, 0xf8, 129, 72, 0xff, 0x2f, 0,
    0x4d, 0x54, 0x72, 0x6b, 0, 0, 0, 4, 0, 0xff, 0x2f, 0] := by
  decide +kernel

theorem sample_valid : ∀ t ∈ sampleFile, t.Valid := by
  intro t ht
  simp only [sampleFile, List.mem_cons, List.not_mem_nil, or_false] at ht
  rcases ht with rfl | rfl | rfl <;> refine ⟨?_, by simp, by decide +kernel⟩ <;> intro e he <;>
    simp only [List.mem_cons, List.not_mem_nil, or_false] at he
  · rcases he with rfl | rfl <;> simp [Entry.Valid, Item.Valid]
  · rcases he with rfl | rfl | rfl | rfl | rfl | rfl <;> simp [Entry.Valid, Item.Valid, Message.Valid]

example : readFile (encodeFile 1 480 sampleFile) = .ok ⟨1, 480, sampleFile.map Score.told⟩ :=
  read_as_written_partial (by omega) (by omega) (by simp [sampleFile]) (by simp [sampleFile]) sample_valid

/-! ### Reading ends -/

theorem vlq_ok {n : Nat} : ∀ {acc : Nat} {l : List Nat} {v : Nat} {r : List Nat}, vlqLoop n acc l = .ok (v, r) → r.length < l.length := by
  induction n with
  | zero => intro acc l v r h; simp [vlqLoop] at h
  | succ n ih =>
    intro acc l v r h
    cases l with
    | nil => simp [vlqLoop] at h
    | cons b l =>
      simp only [vlqLoop] at h
      split at h
      · simp only [Except.ok.injEq, Prod.mk.injEq] at h
        simp [h.2]
      · have := ih h
        simp only [List.length_cons]
        omega

theorem vlq_error {n : Nat} : ∀ {acc : Nat} {l : List Nat}, vlqLoop n acc l ≠ .error .loop := by
  induction n with
  | zero => intro acc l; simp [vlqLoop]
  | succ n ih =>
    intro acc l
    cases l with
    | nil => simp [vlqLoop]
    | cons b l =>
      simp only [vlqLoop]
      split
      · simp
      · exact ih

theorem readVlq_ok {l : List Nat} {v : Nat} {r : List Nat} (h : readVlq l = .ok (v, r)) : r.length < l.length := vlq_ok h

theorem readVlq_error {l : List Nat} {e : Err} (h : readVlq l = .error e) : e ≠ .loop := by
  rintro rfl
  exact vlq_error h

theorem readN_le {n : Nat} {l a r : List Nat} (h : readN n l = some (a, r)) : r.length ≤ l.length := by
  unfold readN at h
  split at h
  · simp only [Option.some.injEq, Prod.mk.injEq] at h
    rw [← h.2]
    simp
  · simp at h

theorem repeats_ends (f : Nat) : ∀ {l : List Nat}, l.length < f → ∃ q, repeats f l = some q ∧ q.length ≤ l.length := by
  induction f with
  | zero => intro l h; simp at h
  | succ f ih =>
    intro l h
    unfold repeats
    cases hv : readVlq l with
    | error e => exact ⟨l, rfl, le_refl _⟩
    | ok p =>
      obtain ⟨v, r⟩ := p
      have := readVlq_ok hv
      simp only
      split
      · rename_i a e r'
        simp only [List.length_cons] at this
        split
        · split
          · rename_i z r''
            simp only [List.length_cons] at this
            split
            · obtain ⟨q, h1, h2⟩ := ih (l := r'') (by omega)
              exact ⟨q, h1, by omega⟩
            · exact ⟨_, rfl, by simp only [List.length_cons]; omega⟩
          · exact ⟨_, rfl, by simp⟩
        · exact ⟨l, rfl, le_refl _⟩
      · exact ⟨l, rfl, le_refl _⟩

/-- The step has an end and does not go back. -/
def Step.Sound (s : Step) (l : List Nat) : Prop := s.fail ≠ some .loop ∧ s.rest.length ≤ l.length

theorem meta_sound (delta : Nat) (l : List Nat) : (readMeta delta l).Sound l := by
  unfold readMeta
  split
  · exact ⟨by simp, le_refl _⟩
  · rename_i id r
    split
    · split
      · rename_i z r'
        split
        · obtain ⟨q, h1, h2⟩ := repeats_ends (r'.length + 1) (l := r') (by omega)
          rw [h1]
          exact ⟨by simp, by simp only [List.length_cons]; omega⟩
        · exact ⟨by simp, by simp⟩
      · exact ⟨by simp, by simp⟩
    · cases hv : readVlq r with
      | error e => exact ⟨by simpa using readVlq_error hv, by simp⟩
      | ok p =>
        obtain ⟨n, r'⟩ := p
        have h1 := readVlq_ok hv
        simp only
        cases hn : readN n r' with
        | none => exact ⟨by simp, by simp only [List.length_cons]; omega⟩
        | some p =>
          have h2 := readN_le (a := p.1) (r := p.2) hn
          exact ⟨by simp, by simp only [List.length_cons]; omega⟩

theorem escape_sound (delta : Nat) (l : List Nat) : (readEscape delta l).Sound l := by
  unfold readEscape
  cases hv : readVlq l with
  | error e => exact ⟨by simpa using readVlq_error hv, by simp⟩
  | ok p =>
    obtain ⟨n, r'⟩ := p
    have h1 := readVlq_ok hv
    simp only
    cases hn : readN n r' with
    | none => exact ⟨by simp, by simp only; omega⟩
    | some p =>
      have h2 := readN_le (a := p.1) (r := p.2) hn
      exact ⟨by simp, by simp only; omega⟩

theorem more_sound (f : Nat) : ∀ (delta : Nat) (added : List Raw) (buf l : List Nat), l.length < f → (sysexMore f delta added buf l).Sound l := by
  induction f with
  | zero => intro _ _ _ l h; simp at h
  | succ f ih =>
    intro delta added buf l h
    unfold sysexMore
    cases hv : readVlq l with
    | error e => exact ⟨by simp, le_refl _⟩
    | ok p =>
      obtain ⟨v, r⟩ := p
      have h1 := readVlq_ok hv
      cases r with
      | nil => exact ⟨by simp, le_refl _⟩
      | cons id r =>
        simp only [List.length_cons] at h1
        simp only
        split
        · cases hw : readVlq r with
          | error e => exact ⟨by simpa using readVlq_error hw, by simp only; omega⟩
          | ok p =>
            obtain ⟨n, r'⟩ := p
            have h2 := readVlq_ok hw
            simp only
            cases hn : readN n r' with
            | none => exact ⟨by simp, by simp only; omega⟩
            | some p =>
              have h3 := readN_le (a := p.1) (r := p.2) hn
              simp only
              split
              · split
                · exact ⟨by simp, by simp only; omega⟩
                · exact ⟨by simp, by simp only; omega⟩
              · obtain ⟨h4, h5⟩ := ih delta added (buf ++ p.1) p.2 (by omega)
                exact ⟨h4, by omega⟩
        · exact ⟨by simp, le_refl _⟩

theorem first_sound (f : Nat) : ∀ (delta : Nat) (added : List Raw) (part l : List Nat), part.length < f →
    (sysexFirst f delta added part l).Sound l := by
  induction f with
  | zero => intro _ _ p l h; simp at h
  | succ f ih =>
    intro delta added part l h
    unfold sysexFirst
    split
    · split
      · exact ⟨by simp, le_refl _⟩
      · rename_i b q hq
        split
        · refine ih _ _ _ _ ?_
          have := congrArg List.length hq
          simp only [List.length_drop, List.length_cons] at this
          omega
        · exact ⟨by simp, le_refl _⟩
    · exact more_sound _ _ _ _ _ (by omega)

theorem sysex_sound (delta : Nat) (l : List Nat) : (readSysex delta l).Sound l := by
  unfold readSysex
  cases hv : readVlq l with
  | error e => exact ⟨by simpa using readVlq_error hv, by simp⟩
  | ok p =>
    obtain ⟨n, r'⟩ := p
    have h1 := readVlq_ok hv
    simp only
    cases hn : readN n r' with
    | none => exact ⟨by simp, by simp only; omega⟩
    | some p =>
      have h2 := readN_le (a := p.1) (r := p.2) hn
      obtain ⟨h3, h4⟩ := first_sound (p.1.length + 1) delta [] p.1 p.2 (by omega)
      exact ⟨h3, by simp only; omega⟩

theorem message_sound (delta id : Nat) (l : List Nat) : (readMessage delta id l).Sound l := by
  unfold readMessage
  split
  · exact ⟨by simp, le_refl _⟩
  · cases hn : readN (messageSize id - 1) l with
    | none => exact ⟨by simp, le_refl _⟩
    | some p => exact ⟨by simp, readN_le (a := p.1) (r := p.2) hn⟩

theorem event_sound (run : Nat) (l : List Nat) : (readEvent run l).1.Sound l ∧
    ((readEvent run l).1.fail = none → (readEvent run l).1.rest.length < l.length) ∧
    (l.take 2 = [0x00, 0xff] → (readEvent run l).1.rest.length < l.length) := by
  unfold readEvent
  cases hv : readVlq l with
  | error e =>
    refine ⟨⟨by simpa using readVlq_error hv, le_refl _⟩, by simp, ?_⟩
    intro h
    exfalso
    rcases l with _ | ⟨a, _ | ⟨b, l⟩⟩ <;> simp at h
    rw [h.1] at hv
    simp [readVlq, vlqLoop] at hv
  | ok p =>
    obtain ⟨delta, r⟩ := p
    have h1 := readVlq_ok hv
    cases r with
    | nil =>
      refine ⟨⟨by simp, by simp⟩, by simp, ?_⟩
      intro h
      rcases l with _ | ⟨a, _ | ⟨b, l⟩⟩ <;> simp at h
      simp
    | cons id r =>
      simp only [List.length_cons] at h1
      simp only
      split
      · have := meta_sound delta r
        exact ⟨⟨this.1, by have := this.2; simp only; omega⟩, fun _ => by have := this.2; simp only; omega, fun _ => by have := this.2; simp only; omega⟩
      · rename_i hff
        have no : l.take 2 ≠ [0x00, 0xff] := by
          intro h
          rcases l with _ | ⟨a, _ | ⟨b, l⟩⟩ <;> simp at h
          rw [h.1, h.2] at hv
          simp [readVlq, vlqLoop] at hv
          exact hff hv.2.1.symm
        split
        · have := escape_sound delta r
          exact ⟨⟨this.1, by have := this.2; simp only; omega⟩, fun _ => by have := this.2; simp only; omega, fun h => absurd h no⟩
        · split
          · have := sysex_sound delta r
            exact ⟨⟨this.1, by have := this.2; simp only; omega⟩, fun _ => by have := this.2; simp only; omega, fun h => absurd h no⟩
          · split
            · have := message_sound delta id r
              exact ⟨⟨this.1, by have := this.2; simp only; omega⟩, fun _ => by have := this.2; simp only; omega, fun h => absurd h no⟩
            · have := message_sound delta run (id :: r)
              have h2 := this.2
              simp only [List.length_cons] at h2
              exact ⟨⟨this.1, by simp only; omega⟩, fun _ => by simp only; omega, fun h => absurd h no⟩

theorem events_ends (next : Option (List Nat)) (f : Nat) : ∀ (run : Nat) (acc : List Raw) (l : List Nat), l.length < f →
    events next f run acc l ≠ .fatal .loop ∧ ∀ evs r b, events next f run acc l ≠ .stopped .loop evs r b := by
  induction f with
  | zero => intro _ _ l h; simp at h
  | succ f ih =>
    intro run acc l h
    obtain ⟨⟨h1, h2⟩, h3, -⟩ := event_sound run l
    unfold events
    split
    · rename_i e he
      rw [he] at h1
      refine ⟨by simp, ?_⟩
      intro evs r b hc
      simp only [Out.stopped.injEq] at hc
      exact h1 (by rw [hc.1])
    · rename_i he
      have := h3 he
      split
      · exact ⟨by simp, by simp⟩
      · split
        · exact ⟨by simp, by simp⟩
        · exact ih _ _ _ (by omega)

theorem after_ends (next : Option (List Nat)) (f : Nat) : ∀ (run : Nat) (acc : List Raw) (last : Bool) (l : List Nat), l.length < f →
    afterEnd next f run acc last l ≠ .error .loop := by
  induction f with
  | zero => intro _ _ _ l h; simp at h
  | succ f ih =>
    intro run acc last l h
    obtain ⟨⟨h1, h2⟩, -, h3⟩ := event_sound run l
    unfold afterEnd
    split
    · rename_i ht
      have := h3 ht
      split
      · exact ih _ _ _ _ (by omega)
      · rename_i e _ he
        rw [he] at h1
        intro hc
        simp only [Except.error.injEq] at hc
        exact h1 (by rw [hc])
      · split
        · simp
        · exact ih _ _ _ _ (by omega)
    · simp

theorem track_ends (run len : Nat) (body : List Nat) : readTrack run len body ≠ .error .loop := by
  obtain ⟨h1, h2⟩ := events_ends (nextTrack len body) (body.length + 1) run [] body (by omega)
  unfold readTrack
  split
  · rename_i e he
    intro hc
    simp only [Except.error.injEq] at hc
    exact h1 (by rw [he, hc])
  · simp
  · split
    · split <;> simp
    · simp
  · rename_i he
    exact absurd he (h2 _ _ _)
  · rename_i evs run' rest he
    split
    · rename_i e ha
      intro hc
      simp only [Except.error.injEq] at hc
      exact after_ends (nextTrack len body) (rest.length + 1) run' evs false rest (by omega) (by rw [ha, hc])
    · simp

theorem tracks_end (n : Nat) : ∀ (run : Nat) (l : List Nat), readTracks n run l ≠ .error .loop := by
  induction n with
  | zero => intro _ _; simp [readTracks]
  | succ n ih =>
    intro run l
    unfold readTracks
    split
    · simp
    · split
      · split
        · simp
        · rename_i len body _
          split
          · rename_i e he
            intro hc
            simp only [Except.error.injEq] at hc
            exact track_ends run len body (by rw [he, hc])
          · simp
          · rename_i evs run' next _
            split
            · rename_i e he
              intro hc
              simp only [Except.error.injEq] at hc
              exact ih run' next (by rw [he, hc])
            · simp
      · split <;> simp

/-- Whatever the bytes of a file are, its reading ends: in a file or in an error. -/
theorem read_ends (bytes : List Nat) : readFile bytes ≠ .error .loop := by
  unfold readFile
  split
  · simp
  · split
    · simp
    · split
      · simp
      · split
        · simp
        · split
          · simp
          · split
            · simp
            · split
              · simp
              · split
                · rename_i e he
                  intro hc
                  simp only [Except.error.injEq] at hc
                  exact tracks_end _ _ _ (by rw [he, hc])
                · simp

/-- A file cut off in its track: what was there is read. -/
example : readFile [0x4d, 0x54, 0x68, 0x64, 0, 0, 0, 6, 0, 1, 0, 1, 1, 224, 0x4d, 0x54, 0x72, 0x6b, 0, 0, 0, 17, 5, 0x93, 60, 100, 129] =
    .ok ⟨1, 480, [[⟨5, .message, [0x93, 60, 100]⟩]]⟩ := by
  decide +kernel

/-- A sysex message may be sent in parts, each after its own time: the first as `F0` with length and data, the others as `F7`. -/
def parts : List (Nat × List Nat) → List Nat
  | [] => []
  | (d, p) :: r => vlq d ++ (0xf0 :: (vlq p.length ++ p)) ++ r.flatMap fun q => vlq q.1 ++ (0xf7 :: (vlq q.2.length ++ q.2))

/-- The times between the parts are lost: all that follows in the track comes too early. Here a note that was written 300 ticks after the
start is read at the start (the parts are those of the example of the standard). -/
theorem sysex_parts_violated : ∃ ps : List (Nat × List Nat), (ps.map Prod.fst).sum = 300 ∧
    (parts ps ++ [0, 0x90, 60, 100] ++ [0, 0xff, 0x2f, 0]).length = 31 ∧
    readFile ([0x4d, 0x54, 0x68, 0x64] ++ be4 6 ++ be2 0 ++ be2 1 ++ be2 480 ++ [0x4d, 0x54, 0x72, 0x6b] ++ be4 31 ++
      (parts ps ++ [0, 0x90, 60, 100] ++ [0, 0xff, 0x2f, 0])) =
      .ok ⟨0, 480, [[⟨0, .message, 0xf0 :: ps.flatMap Prod.snd⟩, ⟨0, .message, [0x90, 60, 100]⟩, ⟨0, .metaEvent, [0x2f]⟩]]⟩ :=
  ⟨[(0, [0x43, 0x12, 0]), (200, [0x43, 0x12, 0, 0x43, 0x12, 0]), (100, [0x43, 0x12, 0, 0xf7])], by decide +kernel, by decide +kernel,
    by decide +kernel⟩

/-! ### Files that are cut off -/

theorem vlq_cut {n k : Nat} (h : n < 268435456) (hk : k < (vlq n).length) : readVlq ((vlq n).take k) = .error .eof := by
  have none_ : readVlq [] = .error .eof := rfl
  have step : ∀ j acc a l, vlqLoop (j + 1) acc ((128 + a) :: l) = vlqLoop j (acc * 128 + a % 128) l := by
    intro j acc a l
    simp only [vlqLoop]
    rw [if_neg (by omega), show (128 + a) % 128 = a % 128 by omega]
  unfold vlq at hk ⊢
  split
  · rename_i h1
    simp only [h1, if_true, List.length_cons, List.length_nil] at hk
    rw [show k = 0 by omega]
    rfl
  · rename_i h1
    rw [if_neg h1] at hk
    split
    · rename_i h2
      simp only [h2, if_true, List.length_cons, List.length_nil] at hk
      interval_cases k
      · rfl
      · simp [readVlq, step, vlqLoop]
    · rename_i h2
      rw [if_neg h2] at hk
      split
      · rename_i h3
        simp only [h3, if_true, List.length_cons, List.length_nil] at hk
        interval_cases k
        · rfl
        · simp [readVlq, step, vlqLoop]
        · simp [readVlq, step, vlqLoop]
      · rename_i h3
        simp only [h3, if_false, List.length_cons, List.length_nil] at hk
        interval_cases k
        · rfl
        · simp [readVlq, step, vlqLoop]
        · simp [readVlq, step, vlqLoop]
        · simp [readVlq, step, vlqLoop]

theorem sized_cut {d : List Nat} {k : Nat} (h : d.length < 268435456) (hk : k < (vlq d.length ++ d).length) :
    readVlq ((vlq d.length ++ d).take k) = .error .eof ∨
      ∃ q, readVlq ((vlq d.length ++ d).take k) = .ok (d.length, q) ∧ readN d.length q = none := by
  by_cases h1 : k < (vlq d.length).length
  · left
    rw [List.take_append_of_le_length (by omega)]
    exact vlq_cut h h1
  · right
    rw [List.take_append, List.take_of_length_le (by omega), readVlq_vlq h]
    refine ⟨_, rfl, ?_⟩
    simp only [List.length_append] at hk
    unfold readN
    rw [if_neg]
    simp
    omega

/-- An event of which the last bytes are missing is not read. -/
theorem readEvent_cut {e : Entry} (h : e.Valid) {prev : Option Nat} {run k : Nat} (hp : ∀ s, prev = some s → run = s)
    (hk : k < (e.bytes prev).length) :
    (readEvent run ((e.bytes prev).take k)).1.fail = some .eof ∧ (readEvent run ((e.bytes prev).take k)).1.added = [] := by
  obtain ⟨delta, item, short⟩ := e
  obtain ⟨hd, hi⟩ := h
  simp only at hd hi
  have cut : ∀ (l : List Nat) (j : Nat), j < (vlq delta ++ l).length → j < (vlq delta).length + 1 →
      (readEvent run ((vlq delta ++ l).take j)).1.fail = some .eof ∧ (readEvent run ((vlq delta ++ l).take j)).1.added = [] := by
    intro l j h1 h2
    by_cases h3 : j < (vlq delta).length
    · rw [List.take_append_of_le_length (by omega)]
      simp [readEvent, vlq_cut hd h3]
    · rw [List.take_append, List.take_of_length_le (by omega), show j - (vlq delta).length = 0 by omega, List.take_zero]
      unfold readEvent
      rw [readVlq_vlq hd]
      exact ⟨rfl, rfl⟩
  have more : ∀ (l : List Nat) (j : Nat), ¬ j < (vlq delta).length + 1 →
      ∃ j', j' + (vlq delta).length = j ∧ 0 < j' ∧ (vlq delta ++ l).take j = vlq delta ++ l.take j' := by
    intro l j h1
    refine ⟨j - (vlq delta).length, by omega, by omega, ?_⟩
    rw [List.take_append, List.take_of_length_le (by omega)]
  have message : ∀ (m : Message), m.Valid → ∀ s d, m.bytes = s :: d → ∀ j, j < d.length →
      readMessage delta s (d.take j) = ⟨[], some .eof, d.take j⟩ := by
    intro m hm s d hb j hj
    obtain ⟨s', d', h1, h2, h3, h4, h5⟩ := readMessage_bytes hm delta []
    rw [hb] at h1 h5
    obtain ⟨rfl, rfl⟩ := List.cons.inj h1
    rw [List.append_nil] at h5
    unfold readMessage at h5 ⊢
    split
    · rename_i h0
      rw [if_pos h0] at h5
      simp at h5
    · rename_i h0
      rw [if_neg h0] at h5
      unfold readN at h5 ⊢
      split at h5
      · rename_i hx
        split at hx
        · simp at hx
        · simp at h5
      · rename_i a r hx
        split at hx
        · simp only [Option.some.injEq, Prod.mk.injEq] at hx
          simp only [Step.mk.injEq, and_true] at h5
          have : (d.drop (messageSize s - 1)).length = 0 := by rw [hx.2, h5.2.2]; rfl
          rw [List.length_drop] at this
          rw [if_neg (by rw [List.length_take]; omega)]
        · simp at hx
  unfold Entry.bytes at hk ⊢
  simp only at hk ⊢
  by_cases h0 : k < (vlq delta).length + 1
  · exact cut _ _ hk h0
  obtain ⟨j, h1, h2, h3⟩ := more (if short = true ∧ item.status.isSome = true ∧ item.status = prev then item.bytes.tail else item.bytes) k h0
  rw [h3]
  rw [List.length_append] at hk
  obtain ⟨j, rfl⟩ : ∃ i, j = i + 1 := ⟨j - 1, by omega⟩
  unfold readEvent
  rw [readVlq_vlq hd]
  split at hk
  · rename_i hs
    rw [if_pos hs]
    obtain ⟨-, hs1, hs2⟩ := hs
    cases item with
    | channel m =>
      obtain ⟨s, d, g1, g2, g3, ⟨b, d', rfl, hb⟩, g4⟩ := readMessage_bytes (m := m) hi delta []
      have hrun : run = s := by
        apply hp
        rw [← hs2]
        simp [Item.status, g1]
      simp only [Item.bytes, g1, List.tail_cons] at hk ⊢
      have := message m hi s (b :: d') g1 (j + 1) (by omega)
      simp only [List.take_succ_cons] at this ⊢
      rw [if_neg (by omega), if_neg (by omega), if_neg (by omega), if_neg (by omega), hrun, this]
      exact ⟨rfl, rfl⟩
    | _ => simp [Item.status] at hs1
  · rename_i hs
    rw [if_neg hs]
    cases item with
    | channel m =>
      obtain ⟨s, d, g1, g2, g3, -, g4⟩ := readMessage_bytes (m := m) hi delta []
      simp only [Item.bytes, g1, List.length_cons] at hk ⊢
      have := message m hi s d g1 j (by omega)
      simp only [List.take_succ_cons]
      rw [if_neg (by omega), if_neg (by omega), if_neg (by omega), if_pos g2, this]
      exact ⟨rfl, rfl⟩
    | tempo t =>
      simp only [Item.bytes, List.length_cons, List.length_nil] at hk ⊢
      have : j < 5 := by omega
      interval_cases j <;> exact ⟨rfl, rfl⟩
    | text id d =>
      obtain ⟨h1, h2, h3, h4, h5, h6⟩ := hi
      simp only [Item.bytes, List.length_cons] at hk ⊢
      simp only [List.take_succ_cons, if_true]
      cases j with
      | zero => exact ⟨rfl, rfl⟩
      | succ j =>
        have key : ∃ r, readMeta delta (id :: (vlq d.length ++ d).take j) = ⟨[], some .eof, r⟩ := by
          unfold readMeta
          simp only
          rw [if_neg (by rintro (x | x) <;> contradiction)]
          rcases sized_cut h5 (k := j) (by omega) with h | ⟨q, h, g⟩
          · rw [h]; exact ⟨_, rfl⟩
          · rw [h]; simp only; rw [g]; exact ⟨_, rfl⟩
        obtain ⟨r, key⟩ := key
        rw [List.take_succ_cons, key]
        exact ⟨rfl, rfl⟩
    | sysex d =>
      obtain ⟨h1, h2⟩ := hi
      simp only [Item.bytes, List.length_cons] at hk ⊢
      simp only [List.take_succ_cons, readSysex]
      rw [if_neg (by omega), if_neg (by omega), if_pos trivial]
      have := sized_cut (d := d ++ [0xf7]) (k := j) (by simpa using h1) (by simp only [List.length_append] at hk ⊢; simp at hk ⊢; omega)
      simp only [List.length_append, List.length_cons, List.length_nil, Nat.zero_add] at this
      rcases this with h | ⟨q, h, g⟩
      · rw [h]; exact ⟨rfl, rfl⟩
      · rw [h]; simp only; rw [g]; exact ⟨rfl, rfl⟩
    | escape d =>
      obtain ⟨h1, h2⟩ := hi
      simp only [Item.bytes, List.length_cons] at hk ⊢
      simp only [List.take_succ_cons, readEscape]
      rw [if_neg (by omega), if_pos trivial]
      rcases sized_cut h1 (k := j) (by omega) with h | ⟨q, h, g⟩
      · rw [h]; exact ⟨rfl, rfl⟩
      · rw [h]; simp only; rw [g]; exact ⟨rfl, rfl⟩

theorem events_cut {k : Nat} {e : Entry} (he : e.Valid) (es : List Entry) :
    ∀ (prev : Option Nat) (run fuel : Nat) (acc : List Raw), (∀ x ∈ es, x.Valid) → (∀ s, prev = some s → run = s) → es.length < fuel →
    k < (e.bytes ((es.getLast?.map fun x => x.item.status).getD prev)).length →
    ∃ run' b, events none fuel run acc (encodeEntries prev es ++ (e.bytes ((es.getLast?.map fun x => x.item.status).getD prev)).take k) =
      .stopped .eof (acc ++ es.map (fun e => e.item.told e.delta)) run' b := by
  induction es with
  | nil =>
    intro prev run fuel acc _ hp hf hk
    obtain ⟨f, rfl⟩ : ∃ f, fuel = f + 1 := ⟨fuel - 1, by simp at hf; omega⟩
    simp only [List.getLast?_nil, Option.map_none, Option.getD_none] at hk ⊢
    obtain ⟨h1, h2⟩ := readEvent_cut he hp hk
    simp only [encodeEntries, List.nil_append, events, h1, h2, List.map_nil]
    exact ⟨_, _, rfl⟩
  | cons x es ih =>
    intro prev run fuel acc hv hp hf hk
    obtain ⟨f, rfl⟩ : ∃ f, fuel = f + 1 := ⟨fuel - 1, by simp at hf; omega⟩
    have hx := hv x (by simp)
    have hl : (((x :: es).getLast?.map fun x => x.item.status).getD prev) = (es.getLast?.map fun x => x.item.status).getD x.item.status := by
      rw [List.getLast?_cons]
      cases es.getLast? <;> rfl
    rw [hl] at hk ⊢
    obtain ⟨run', b, h⟩ := ih x.item.status (x.item.status.getD run) f (acc ++ [x.item.told x.delta]) (fun y hy => hv y (by simp [hy]))
      (by intro s hs; simp [hs]) (by simpa using hf) hk
    refine ⟨run', b, ?_⟩
    simp only [encodeEntries, List.append_assoc, events]
    rw [readEvent_entry hx hp]
    simp only [List.getLast?_singleton, Option.map_some, Option.getD_some, told_notEnd hx.2]
    rw [if_neg (by simp [overlap]), if_neg (by simp), h]
    simp

theorem encode_append (es : List Entry) (e : Entry) (r : List Entry) : ∀ prev, encodeEntries prev (es ++ e :: r) =
    encodeEntries prev es ++ (e.bytes ((es.getLast?.map fun x => x.item.status).getD prev) ++ encodeEntries e.item.status r) := by
  induction es with
  | nil => intro prev; simp [encodeEntries]
  | cons x es ih =>
    intro prev
    have hl : (((x :: es).getLast?.map fun x => x.item.status).getD prev) = (es.getLast?.map fun x => x.item.status).getD x.item.status := by
      rw [List.getLast?_cons]
      cases es.getLast? <;> rfl
    rw [hl, List.cons_append, encodeEntries, encodeEntries, ih, List.append_assoc]

theorem readTracks_cut {t : Score} (ht : t.Valid) {es r : List Entry} {e : Entry} (hes : t.entries = es ++ e :: r) {k : Nat}
    (hk1 : (encodeEntries none es).length ≤ k) (hk2 : k < (encodeEntries none (es ++ [e])).length) (more : Nat) (ts : List Score) :
    ∀ run, (∀ x ∈ ts, x.Valid) →
    readTracks (ts.length + 1 + more) run (ts.flatMap Score.bytes ++ ([0x4d, 0x54, 0x72, 0x6b] ++ (be4 t.body.length ++ t.body.take k))) =
      .ok (ts.map Score.told ++ [es.map fun e => e.item.told e.delta]) := by
  have hlast : encodeEntries none (es ++ [e]) = encodeEntries none es ++ e.bytes ((es.getLast?.map fun x => x.item.status).getD none) := by
    rw [encode_append]
    simp [encodeEntries]
  have hbody : t.body = encodeEntries none es ++ (e.bytes ((es.getLast?.map fun x => x.item.status).getD none) ++
      (encodeEntries e.item.status r ++ (vlq t.last ++ [0xff, 0x2f, 0]))) := by
    rw [Score.body, hes, encode_append]
    simp
  rw [hlast, List.length_append] at hk2
  induction ts with
  | nil =>
    intro run _
    have hcut : t.body.take k = encodeEntries none es ++ (e.bytes ((es.getLast?.map fun x => x.item.status).getD none)).take
        (k - (encodeEntries none es).length) := by
      rw [hbody, List.take_append, List.take_of_length_le hk1, List.take_append_of_le_length (by omega)]
    have hshort : (t.body.take k).length < t.body.length := by
      rw [List.length_take, hbody]
      simp only [List.length_append]
      omega
    have hnext : nextTrack t.body.length (t.body.take k) = none := by
      unfold nextTrack readN
      rw [if_neg (by omega)]
    rw [show ([] : List Score).length + 1 + more = more + 1 by simp; omega]
    simp only [List.flatMap_nil, List.nil_append, readTracks]
    rw [show readN 4 _ = _ from readN_append [0x4d, 0x54, 0x72, 0x6b] _]
    simp only [trackMagic, if_true]
    rw [readBE_be4 ht.2.2]
    simp only [readTrack, hnext]
    have hlen := entries_length es none
    obtain ⟨run', b, h⟩ := events_cut (k := k - (encodeEntries none es).length) (ht.1 e (by rw [hes]; simp)) es none run
      ((t.body.take k).length + 1) [] (fun x hx => ht.1 x (by rw [hes]; simp [hx])) (by simp)
      (by rw [hcut]; simp only [List.length_append]; omega) (by omega)
    rw [← hcut] at h
    rw [h]
    rfl
  | cons x ts ih =>
    intro run hv
    have hx := hv x (by simp)
    have hf : Follows (ts.flatMap Score.bytes ++ ([0x4d, 0x54, 0x72, 0x6b] ++ (be4 t.body.length ++ t.body.take k))) := by
      cases ts with
      | nil => right; exact ⟨_, rfl⟩
      | cons y ts => right; exact ⟨_, by simp only [List.flatMap_cons, Score.bytes, List.append_assoc]; rfl⟩
    obtain ⟨run', h1⟩ := readTrack_score hx run hf
    have h2 := ih run' fun y hy => hv y (by simp [hy])
    have e' : (x :: ts).flatMap Score.bytes ++ ([0x4d, 0x54, 0x72, 0x6b] ++ (be4 t.body.length ++ t.body.take k)) =
        [0x4d, 0x54, 0x72, 0x6b] ++ (be4 x.body.length ++ (x.body ++
          (ts.flatMap Score.bytes ++ ([0x4d, 0x54, 0x72, 0x6b] ++ (be4 t.body.length ++ t.body.take k))))) := by
      simp only [List.flatMap_cons, Score.bytes, List.append_assoc]
    rw [e', show (x :: ts).length + 1 + more = (ts.length + 1 + more) + 1 by simp; omega]
    rw [readTracks]
    rw [show readN 4 _ = _ from readN_append [0x4d, 0x54, 0x72, 0x6b] _]
    simp only [trackMagic, if_true]
    rw [readBE_be4 hx.2.2]
    simp only [h1, h2]
    rfl

/-- Of a file that is cut off in a track, all that is there is read: the tracks before, and in the track the events that are whole. -/
theorem cut_read_partial {format unit : Nat} (hf : format < 65536) (hu : unit < 65536) {tracks ts post : List Score} {t : Score}
    (hts : tracks = ts ++ t :: post) (h2 : tracks.length < 65536) (h : ∀ t ∈ tracks, t.Valid) {es r : List Entry} {e : Entry}
    (hes : t.entries = es ++ e :: r) {k : Nat} (hk1 : (encodeEntries none es).length ≤ k) (hk2 : k < (encodeEntries none (es ++ [e])).length) :
    readFile ((encodeFile format unit tracks).take (14 + (ts.flatMap Score.bytes).length + 8 + k)) =
      .ok ⟨format, unit, ts.map Score.told ++ [es.map fun e => e.item.told e.delta]⟩ := by
  have ht := h t (by rw [hts]; simp)
  have hb : k < t.body.length := by
    rw [Score.body, hes, show es ++ e :: r = (es ++ [e]) ++ r by simp]
    have : ∀ (a b : List Entry) prev, (encodeEntries prev a).length ≤ (encodeEntries prev (a ++ b)).length := by
      intro a
      induction a with
      | nil => intro b prev; simp [encodeEntries]
      | cons x a ih =>
        intro b prev
        have := ih b x.item.status
        simp only [List.cons_append, encodeEntries, List.length_append]
        omega
    have := this (es ++ [e]) r none
    rw [List.length_append]
    omega
  have e1 : encodeFile format unit tracks = ([0x4d, 0x54, 0x68, 0x64] ++ (be4 6 ++ (be2 format ++ (be2 tracks.length ++ be2 unit)))) ++
      (ts.flatMap Score.bytes ++ (([0x4d, 0x54, 0x72, 0x6b] ++ be4 t.body.length) ++ (t.body ++ post.flatMap Score.bytes))) := by
    have ft : tracks.flatMap Score.bytes = ts.flatMap Score.bytes ++ (t.bytes ++ post.flatMap Score.bytes) := by
      rw [hts]
      simp
    rw [encodeFile, ft]
    simp only [Score.bytes, List.append_assoc]
  have e2 : (encodeFile format unit tracks).take (14 + (ts.flatMap Score.bytes).length + 8 + k) =
      0x4d :: ([0x54, 0x68, 0x64] ++ (be4 6 ++ (be2 format ++ (be2 tracks.length ++ (be2 unit ++
        (ts.flatMap Score.bytes ++ ([0x4d, 0x54, 0x72, 0x6b] ++ (be4 t.body.length ++ t.body.take k)))))))) := by
    rw [e1, List.take_append, List.take_of_length_le (by simp [be4, be2]; omega), List.take_append,
      List.take_of_length_le (by simp [be4, be2]; omega), List.take_append, List.take_of_length_le (by simp [be4, be2]; omega)]
    have hk : ∀ n, n = k → (t.body ++ post.flatMap Score.bytes).take n = t.body.take k := by
      rintro _ rfl
      exact List.take_append_of_le_length (by omega)
    rw [hk]
    · simp only [List.append_assoc]
      rfl
    · simp [be4, be2]
      omega
  unfold readFile
  rw [e2]
  have hh : ∀ l, findHead (0x4d :: ([0x54, 0x68, 0x64] ++ l)) = some l := by
    intro l
    unfold findHead
    rw [if_pos (by simp [fileMagic])]
    simp
  rw [hh]
  simp only
  rw [readBE_be4 (by omega)]
  simp only
  rw [readBE_be2 hf]
  simp only
  rw [readBE_be2 h2]
  simp only
  rw [readBE_be2 hu]
  simp only
  rw [if_neg (by rw [hts]; simp)]
  have hr := readTracks_cut ht hes hk1 hk2 post.length ts 0 (fun x hx => h x (by rw [hts]; simp [hx]))
  rw [show ts.length + 1 + post.length = tracks.length by rw [hts]; simp; omega] at hr
  simp only [readN, Nat.sub_self, Nat.zero_le, if_true, List.drop_zero]
  rw [hr]

example : readFile ((encodeFile 1 480 sampleFile).take (14 + 25 + 8 + 10)) =
    .ok ⟨1, 480, (sampleFile.take 1).map Score.told ++ [[⟨0, .message, [0x93, 60, 100]⟩, ⟨10, .message, [0x93, 64, 100]⟩]]⟩ :=
  cut_read_partial (by omega) (by omega) (ts := sampleFile.take 1) (post := sampleFile.drop 2) rfl (by simp [sampleFile]) sample_valid
    (es := [⟨0, .channel (.noteOn 3 60 100), false⟩, ⟨10, .channel (.noteOn 3 64 100), true⟩]) rfl (by decide +kernel) (by decide +kernel)

/-- But if the cut is in the length of a track, all of the file is refused. -/
theorem cut_length_violated : ∃ (tracks : List Score) (k : Nat), (∀ t ∈ tracks, t.Valid) ∧
    (14 + ((tracks.take 2).flatMap Score.bytes).length ≤ k) ∧ readFile ((encodeFile 1 480 tracks).take k) = .error .eof :=
  ⟨sampleFile, 14 + 25 + 40 + 6, sample_valid, by decide +kernel, by decide +kernel⟩

/-! ### From the bytes of a file to the synthesizer -/

/-- The message that bytes tell, if they are of a channel. -/
def decode : List Nat → Option Message
  | [s, a] => if s / 16 = 12 then some (.program (s % 16) a) else if s / 16 = 13 then some (.pressure (s % 16) a) else none
  | [s, a, b] =>
    if s / 16 = 8 then some (.noteOff (s % 16) a b)
    else if s / 16 = 9 then some (.noteOn (s % 16) a b)
    else if s / 16 = 10 then some (.polyPressure (s % 16) a b)
    else if s / 16 = 11 then some (.control (s % 16) a b)
    else if s / 16 = 14 then some (.bend (s % 16) (b * 128 + a))
    else none
  | _ => none

theorem decode_bytes {m : Message} (h : m.Valid) : decode m.bytes = some m := by
  cases m <;> simp only [Message.Valid] at h <;> simp only [Message.bytes, decode]
  all_goals repeat' first | rw [if_neg (by omega)] | rw [if_pos (by omega)]
  all_goals congr 2 <;> omega

theorem decode_sysex (d : List Nat) : decode (0xf0 :: (d ++ [0xf7])) = none := by
  rcases d with _ | ⟨a, _ | ⟨b, d⟩⟩
  · rfl
  · rfl
  · cases d <;> rfl

/-- An event as the sequencer plays it. -/
def Item.ev : Item → Sequencer.Ev
  | .channel m => .message m.bytes
  | .tempo t => .tempo t
  | .text _ _ => .other
  | .sysex d => .message (0xf0 :: (d ++ [0xf7]))
  | .escape _ => .system

/-- The events of a track and their ticks from one to the next. -/
def Score.events (t : Score) : List (Nat × Sequencer.Ev) := t.entries.map fun e => (e.delta, e.item.ev)

/-- Ticks per second: frames per second and ticks per frame, or ticks per quarter note. -/
inductive Timing
  | frames (perSecond ticks : Nat)
  | quarter (ticks : Nat)
deriving DecidableEq, Repr

def Timing.Valid : Timing → Prop
  | .frames f t => 0 < f ∧ f ≤ 128 ∧ 0 < t ∧ t < 256
  | .quarter n => 0 < n ∧ n < 32768

/-- The two bytes of the header: frames as a negative number. -/
def Timing.unit : Timing → Nat
  | .frames f t => (256 - f) * 256 + t
  | .quarter n => n

def Timing.division : Timing → Sequencer.Division
  | .frames f t => .second (f * t)
  | .quarter n => .quarter n

theorem division_unit {t : Timing} (h : t.Valid) : division t.unit = t.division ∧ t.division.Valid ∧ t.unit < 65536 := by
  cases t with
  | frames f t =>
    obtain ⟨h1, h2, h3, h4⟩ := h
    have e1 : ((256 - f) * 256 + t) / 256 = 256 - f := by omega
    have e2 : ((256 - f) * 256 + t) % 256 = t := by omega
    refine ⟨?_, Nat.mul_pos h1 h3, by simp only [Timing.unit]; omega⟩
    unfold division
    rw [if_pos (show 32768 ≤ (Timing.frames f t).unit by simp only [Timing.unit]; omega)]
    simp only [Timing.unit, Timing.division]
    rw [e1, e2, show 256 - (256 - f) = f by omega]
  | quarter n =>
    obtain ⟨h1, h2⟩ := h
    refine ⟨?_, h1, by simp only [Timing.unit]; omega⟩
    unfold division
    rw [if_neg (show ¬ 32768 ≤ (Timing.quarter n).unit by simp only [Timing.unit]; omega)]
    rfl

theorem told_toEv {i : Item} (h : i.Valid) (delta : Nat) : (i.told delta).toEv = i.ev := by
  cases i with
  | tempo t =>
    simp only [Item.told, Raw.toEv, Item.ev, Sequencer.Ev.tempo.injEq]
    omega
  | text id d =>
    obtain ⟨h1, h2, h3, h4, -⟩ := h
    simp only [Item.told, Raw.toEv, Item.ev]
    split
    · rename_i heq
      simp only [List.cons.injEq] at heq
      exact absurd heq.1 h4
    · simp [h2, h3]
    · simp at *
    · simp at *
  | channel m => rfl
  | sysex d => rfl
  | escape d => rfl

theorem ticks_append (es : List (Nat × Sequencer.Ev)) (n : Nat) : ∀ a, (∀ e ∈ es, e.2 ≠ .endOfTrack) →
    Sequencer.ticksFrom a (es ++ [(n, .endOfTrack)]) = Sequencer.ticksFrom a es := by
  induction es with
  | nil => intro a _; simp [Sequencer.ticksFrom]
  | cons e es ih =>
    intro a h
    obtain ⟨d, e⟩ := e
    have := h (d, e) (by simp)
    simp only [List.cons_append, Sequencer.ticksFrom]
    rw [if_neg this, if_neg this, ih _ fun x hx => h x (by simp [hx])]

theorem ends_append (es : List (Nat × Sequencer.Ev)) (n : Nat) (h : ∀ e ∈ es, e.2 ≠ .endOfTrack) :
    Sequencer.Ends (es ++ [(n, .endOfTrack)]) := by
  induction es with
  | nil => simp [Sequencer.Ends]
  | cons e es ih =>
    obtain ⟨d, e⟩ := e
    have := h (d, e) (by simp)
    simp only [List.cons_append, Sequencer.Ends]
    rw [if_neg this]
    exact ih fun x hx => h x (by simp [hx])

theorem ev_notEnd (i : Item) : i.ev ≠ .endOfTrack := by cases i <;> simp [Item.ev]

/-- A file written with any tracks of channel messages (but for pressure), tempos, and other events is rendered: each message reaches the
synthesizer exactly once and in the order of the merged tracks, before the block that its time falls into and with the delay of its frame in
that block. -/
theorem bytes_rendered_partial {rate bs : Nat} (hr : 0 < rate) (hb : 0 < bs) {format : Nat} (hf : format < 2) {timing : Timing}
    (hu : timing.Valid) {tracks : List Score} (h1 : tracks ≠ []) (h2 : tracks.length < 65536) (h : ∀ t ∈ tracks, t.Valid)
    (hp : ∀ t ∈ tracks, ∀ e ∈ t.entries, ∀ m, e.item = .channel m → m.isPressure = false) :
    ∃ all : List Sequencer.Placed, Sequencer.Merged (fun i => Sequencer.ticksFrom 0 ((tracks.map Score.events).getD i [])) all ∧
      ∀ fuel, (tracks.map fun t => t.entries.length + 1).sum ≤ fuel →
        ((Sequencer.timed timing.division 500000 0 0 all).map fun e => Clients.frameOf rate e.1).foldr max 0 / bs < fuel →
        renderBytes rate bs fuel (encodeFile format timing.unit tracks) = .ok (some
          ((List.range (((Sequencer.timed timing.division 500000 0 0 all).map fun e => Clients.frameOf rate e.1).foldr max 0 / bs + 1)).map
            (fun b => ((Sequencer.timed timing.division 500000 0 0 all).filter fun e => Clients.frameOf rate e.1 / bs = b).flatMap
              fun e => Sequencer.meaningOf decode (Clients.frameOf rate e.1 % bs) e.2.2), true)) := by
  obtain ⟨d1, d2, d3⟩ := division_unit hu
  have told : ∀ t ∈ tracks, (t.told.map fun e => (e.delta, e.toEv)) = t.events ++ [(t.last, .endOfTrack)] := by
    intro t ht
    unfold Score.told Score.events
    rw [List.map_append, List.map_map]
    congr 1
    apply List.map_congr_left
    intro e he
    simp only [Function.comp]
    rw [told_toEv ((h t ht).1 e he).2]
    congr 1
    cases e.item <;> rfl
  have file : (tracks.map Score.told).map (fun t => t.map fun e => (e.delta, e.toEv)) =
      tracks.map fun t => t.events ++ [(t.last, .endOfTrack)] := by
    rw [List.map_map]
    exact List.map_congr_left told
  have notEnd : ∀ t : Score, ∀ e ∈ t.events, e.2 ≠ .endOfTrack := by
    intro t e he
    obtain ⟨x, -, rfl⟩ := List.mem_map.mp he
    exact ev_notEnd _
  obtain ⟨all, hm, hall⟩ := Sequencer.render_file_partial hr hb d2 (file := tracks.map fun t => t.events ++ [(t.last, .endOfTrack)])
    (say := decode)
    (by
      intro r hr'
      obtain ⟨t, -, rfl⟩ := List.mem_map.mp hr'
      exact ends_append _ _ (notEnd t))
    (by
      intro r hr' n tempo hmem
      obtain ⟨t, ht, rfl⟩ := List.mem_map.mp hr'
      rcases List.mem_append.mp hmem with hmem | hmem
      · obtain ⟨e, he, heq⟩ := List.mem_map.mp hmem
        have hv := ((h t ht).1 e he).2
        cases hi : e.item <;> rw [hi] at heq hv <;> simp only [Item.ev, Prod.mk.injEq, reduceCtorEq, and_false] at heq
        rw [Sequencer.Ev.tempo.injEq] at heq
        rw [← heq.2]
        exact hv.1
      · simp at hmem)
    (by
      intro r hr' n b hmem
      obtain ⟨t, ht, rfl⟩ := List.mem_map.mp hr'
      rcases List.mem_append.mp hmem with hmem | hmem
      · obtain ⟨e, he, heq⟩ := List.mem_map.mp hmem
        have hv := ((h t ht).1 e he).2
        have hpr := hp t ht e he
        cases hi : e.item <;> rw [hi] at heq hv <;> simp only [Item.ev, Prod.mk.injEq, reduceCtorEq, and_false] at heq
        · rename_i m
          rw [Sequencer.Ev.message.injEq] at heq
          rw [← heq.2]
          unfold Sequencer.Says
          rw [decode_bytes hv]
          exact ⟨rfl, hv, hpr m hi⟩
        · rw [Sequencer.Ev.message.injEq] at heq
          rw [← heq.2]
          unfold Sequencer.Says
          rw [decode_sysex]
          exact ⟨0xf0, by simp, by omega, by omega⟩
      · simp at hmem)
  refine ⟨all, ?_, ?_⟩
  · have : (fun i => Sequencer.ticksFrom 0 ((tracks.map Score.events).getD i [])) =
        fun i => Sequencer.ticksFrom 0 ((tracks.map fun t => t.events ++ [(t.last, .endOfTrack)]).getD i []) := by
      funext i
      simp only [List.getD_eq_getElem?_getD, List.getElem?_map]
      cases tracks[i]? with
      | none => rfl
      | some t => exact (ticks_append _ _ _ (notEnd t)).symm
    rw [this]
    exact hm
  · intro fuel hf1 hf2
    unfold renderBytes
    rw [read_as_written_partial (by omega) d3 h1 h2 h]
    simp only
    rw [file, d1]
    rw [hall fuel _ hf2]
    rw [List.map_map]
    have : (List.length ∘ fun t : Score => t.events ++ [(t.last, Sequencer.Ev.endOfTrack)]) = fun t => t.entries.length + 1 := by
      funext t
      simp [Score.events]
    rw [this]
    exact hf1

example : renderBytes 10 64 30 (encodeFile 1 480 sampleFile) =
    .ok (some ([[.noteOn 0 60 100, .noteOn 0 64 100], [], [], [.noteOff 16 60 0, .pitchWheel 16 0]], true)) := by
  unfold renderBytes
  rw [read_as_written_partial (by omega) (by omega) (by simp [sampleFile]) (by simp [sampleFile]) sample_valid]
  have h : ((sampleFile.map Score.told).map fun t => t.map fun e => (e.delta, e.toEv)) =
      [[(0, .tempo 500000), (96, .other), (0, .endOfTrack)],
       [(0, .message [0x93, 60, 100]), (10, .message [0x93, 64, 100]), (0, .message [0xf0, 0x7e, 1, 0xf7]), (20000, .message [0x93, 60, 0]),
        (0, .message [0xe3, 0, 64]), (3, .system), (200, .endOfTrack)],
       [(0, .endOfTrack)]] := by decide +kernel
  simp only
  rw [h]
  refine congrArg Except.ok ?_
  show Sequencer.renderFile 10 64 30 (.quarter 480) _ = _
  decide +kernel

end Verif.MidiFile
