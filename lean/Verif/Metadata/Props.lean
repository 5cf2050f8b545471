import Verif.Metadata.Safety

/-!
# Metadata of well-formed files is found
-/

namespace Verif.Metadata

/-! ## Specification: how files are laid out -/

def le32 (n : Nat) : List UInt8 :=
  [UInt8.ofNat n, UInt8.ofNat (n / 256), UInt8.ofNat (n / 65536), UInt8.ofNat (n / 16777216)]

def be32 (n : Nat) : List UInt8 :=
  [UInt8.ofNat (n / 16777216), UInt8.ofNat (n / 65536), UInt8.ofNat (n / 256), UInt8.ofNat n]

def be16 (n : Nat) : List UInt8 := [UInt8.ofNat (n / 256), UInt8.ofNat n]

/-- A chunk: four letters, the size, the data, a pad byte to an even size. -/
def encChunk (e : Nat → List UInt8) (c : List UInt8 × List UInt8) : List UInt8 :=
  c.1 ++ e c.2.length ++ c.2 ++ (if c.2.length % 2 = 1 then [0] else [])

/-- A RIFF file. -/
def riffFile (size : Nat) (form : List UInt8) (cs : List (List UInt8 × List UInt8)) : List UInt8 :=
  ascii "RIFF" ++ le32 size ++ form ++ cs.flatMap (encChunk le32)

/-- An AIFF (or AIFF-C) file. -/
def aiffFile (size : Nat) (form : List UInt8) (cs : List (List UInt8 × List UInt8)) : List UInt8 :=
  ascii "FORM" ++ be32 size ++ form ++ cs.flatMap (encChunk be32)

/-- Where the chunks of a file are, when the first starts at `pos`. -/
def located (pos : Nat) : List (List UInt8 × List UInt8) → List Chunk
  | [] => []
  | c :: cs =>
    { offset := pos + 8, id := c.1, length := c.2.length } ::
      located (pos + 8 + c.2.length + c.2.length % 2) cs

/-- Chunk names have four letters, and chunk sizes fit (the largest odd size would be padded beyond
32 bits). -/
def WellFormed (cs : List (List UInt8 × List UInt8)) : Prop :=
  ∀ c ∈ cs, c.1.length = 4 ∧ c.2.length < 4294967295

/-! ## Numbers -/

theorem u8_toNat (n : Nat) : (UInt8.ofNat n).toNat = n % 256 := by
  simp [UInt8.toNat_ofNat']

theorem u32le_le32 {n : Nat} (h : n < 4294967296) (t : List UInt8) : u32le (le32 n ++ t) = n := by
  simp only [u32le, le32, List.cons_append, List.nil_append, List.getD_cons_zero,
    List.getD_cons_succ, u8_toNat]
  omega

theorem u32be_be32 {n : Nat} (h : n < 4294967296) (t : List UInt8) : u32be (be32 n ++ t) = n := by
  simp only [u32be, be32, List.cons_append, List.nil_append, List.getD_cons_zero,
    List.getD_cons_succ, u8_toNat]
  omega

theorem u16be_be16 {n : Nat} (h : n < 65536) (t : List UInt8) : u16be (be16 n ++ t) = n := by
  simp only [u16be, be16, List.cons_append, List.nil_append, List.getD_cons_zero,
    List.getD_cons_succ, u8_toNat]
  omega

/-! ## Reading at a position -/

/-- At `pos` the rest of the bytes is `l`. -/
def At (s : Src) (pos : Nat) (l : List UInt8) : Prop := pos ≤ s.size ∧ s.bytes.drop pos = l

theorem at_size {s : Src} {pos : Nat} {l : List UInt8} (h : At s pos l) :
    s.size = pos + l.length := by
  obtain ⟨h1, h2⟩ := h
  rw [← h2, List.length_drop]
  unfold Src.size at *
  omega

theorem at_append {s : Src} {pos : Nat} {x r : List UInt8} (h : At s pos (x ++ r)) :
    At s (pos + x.length) r := by
  have hs := at_size h
  rw [List.length_append] at hs
  refine ⟨by omega, ?_⟩
  rw [← List.drop_drop, h.2, List.drop_left]

theorem readOne_at {s : Src} {pos size : Nat} {x r : List UInt8} (h : At s pos (x ++ r))
    (hx : x.length = size) (h0 : 0 < size) :
    readOne s pos size = .ok (x, pos + size) ∧ At s (pos + size) r := by
  have hs := at_size h
  rw [List.length_append] at hs
  have hslice : slice s.bytes pos size = x := by
    unfold slice
    rw [h.2, ← hx, List.take_left]
  refine ⟨?_, by rw [← hx]; exact at_append h⟩
  unfold readOne
  split
  · rw [if_neg (by omega), if_pos (by omega), hslice]
  · rw [if_neg (by omega), if_neg (by omega), if_pos (by omega), hslice]

theorem readOne_short {s : Src} {pos size : Nat} {l : List UInt8} (h : At s pos l)
    (hl : l.length < size) : readOne s pos size = .fail := by
  have hs := at_size h
  unfold readOne
  split
  · rw [if_neg (by omega), if_neg (by omega)]
  · rw [if_neg (by omega), if_neg (by omega), if_neg (by omega)]

theorem seek_at {s : Src} {pos : Nat} {l : List UInt8} (h : At s pos l) : seek s pos = .ok pos := by
  unfold seek
  split
  · rfl
  · rw [if_pos h.1]

theorem readUpTo_at {s : Src} {pos n : Nat} {l : List UInt8} (h : At s pos l) :
    readUpTo s pos n = .ok (l.take n) := by
  unfold readUpTo slice
  split
  · rw [h.2]
  · have := h.1
    rw [if_neg (by omega), h.2]

theorem encChunk_eq (e : Nat → List UInt8) (c : List UInt8 × List UInt8) :
    encChunk e c = c.1 ++ e c.2.length ++ c.2 ++ (if c.2.length % 2 = 1 then [0] else []) := rfl

theorem readRiffData_at {s : Src} {o : Nat} {id data rest : List UInt8} (h : At s o (data ++ rest))
    (count : Nat) :
    readRiffData s { offset := o, id := id, length := data.length } count = .ok (data.take count) := by
  unfold readRiffData
  dsimp only
  rw [seek_at h]
  dsimp only
  rw [readUpTo_at h]
  congr 1
  rw [List.take_append]
  split
  · rw [show count - data.length = 0 by omega]
    simp
  · rw [Nat.sub_self, List.take_of_length_le (Nat.le_refl _), List.take_zero, List.append_nil]
    exact (List.take_of_length_le (by omega)).symm

theorem encChunk_length {e : Nat → List UInt8} (he : ∀ n, (e n).length = 4)
    {c : List UInt8 × List UInt8} (hc : c.1.length = 4) :
    (encChunk e c).length = 8 + c.2.length + c.2.length % 2 := by
  unfold encChunk
  simp only [List.length_append, he, hc]
  split
  · simp only [List.length_cons, List.length_nil]; omega
  · simp only [List.length_nil]; omega

/-! ## Walking over the chunks -/

theorem walk_located (s : Src) (num : List UInt8 → Nat) (e : Nat → List UInt8)
    (he : ∀ n, (e n).length = 4) (hnum : ∀ n, n < 4294967296 → num (e n) = n)
    (cs : List (List UInt8 × List UInt8)) (hw : WellFormed cs) (fuel pos : Nat)
    (acc : List Chunk) (h : At s pos (cs.flatMap (encChunk e))) (hf : cs.length < fuel) :
    walk s num fuel pos acc = .ok (acc ++ located pos cs) := by
  induction cs generalizing fuel pos acc with
  | nil =>
    obtain ⟨fuel, rfl⟩ : ∃ f, fuel = f + 1 := ⟨fuel - 1, by simp at hf; omega⟩
    simp only [walk]
    rw [readOne_short h (by simp)]
    simp [located]
  | cons c cs ih =>
    obtain ⟨fuel, rfl⟩ : ∃ f, fuel = f + 1 := ⟨fuel - 1, by simp at hf; omega⟩
    obtain ⟨hid, hlen⟩ := hw c (by simp)
    simp only [walk]
    have h' : At s pos (c.1 ++ (e c.2.length ++ (c.2 ++ ((if c.2.length % 2 = 1 then [0] else []) ++
        cs.flatMap (encChunk e))))) := by
      rw [List.flatMap_cons, encChunk_eq] at h
      simpa only [List.append_assoc] using h
    obtain ⟨r1, a1⟩ := readOne_at h' hid (by omega)
    rw [r1]
    dsimp only
    obtain ⟨r2, a2⟩ := readOne_at a1 (he _) (by omega)
    rw [r2]
    dsimp only
    rw [hnum _ (by omega)]
    have hpad : padded c.2.length = c.2.length + c.2.length % 2 := by
      unfold padded
      omega
    have a3 : At s (pos + 4 + 4 + (c.2.length + c.2.length % 2)) (cs.flatMap (encChunk e)) := by
      have hx : (c.2 ++ (if c.2.length % 2 = 1 then ([0] : List UInt8) else [])).length =
          c.2.length + c.2.length % 2 := by
        rw [List.length_append]
        split
        · simp only [List.length_cons, List.length_nil]; omega
        · simp only [List.length_nil]; omega
      rw [← hx]
      apply at_append
      rw [List.append_assoc]
      exact a2
    rw [hpad, seek_at a3]
    dsimp only
    rw [ih (fun d hd => hw d (by simp [hd])) fuel _ _ a3 (by simp at hf; omega)]
    simp only [located, List.append_assoc, List.cons_append, List.nil_append]
    rw [show pos + 4 + 4 = pos + 8 by omega,
      show pos + 8 + (c.2.length + c.2.length % 2) = pos + 8 + c.2.length + c.2.length % 2 by omega]

theorem flatMap_length_ge {e : Nat → List UInt8} (he : ∀ n, (e n).length = 4)
    {cs : List (List UInt8 × List UInt8)} (hw : WellFormed cs) :
    cs.length ≤ (cs.flatMap (encChunk e)).length := by
  induction cs with
  | nil => simp
  | cons c cs ih =>
    rw [List.flatMap_cons, List.length_append, encChunk_length he (hw c (by simp)).1]
    have := ih fun d hd => hw d (by simp [hd])
    simp only [List.length_cons]
    omega

theorem ascii_riff : ascii "RIFF" = [82, 73, 70, 70] := by decide +kernel
theorem ascii_flac : ascii "fLaC" = [102, 76, 97, 67] := by decide +kernel
theorem ascii_form : ascii "FORM" = [70, 79, 82, 77] := by decide +kernel

/-- **C45.** Of a well-formed RIFF file, read from disk or from memory, exactly the chunks it has are
found, in order and in their places. -/
theorem riff_chunks_found (kind : Kind) (size : Nat) (form : List UInt8) (hform : form.length = 4)
    (cs : List (List UInt8 × List UInt8)) (hw : WellFormed cs) :
    let s : Src := { kind := kind, bytes := riffFile size form cs }
    openReader s (enough s) = .ok (.riff, located 12 cs) := by
  intro s
  have hat0 : At s 0 (ascii "RIFF" ++ le32 size ++ form ++ cs.flatMap (encChunk le32)) :=
    ⟨Nat.zero_le _, rfl⟩
  have h12 : At s 12 (cs.flatMap (encChunk le32)) := by
    have := at_append hat0
    rwa [show 0 + (ascii "RIFF" ++ le32 size ++ form).length = 12 by
      simp [ascii_riff, le32, hform]] at this
  have hne : ¬ (s.kind = .memory ∧ s.bytes = []) := by
    rintro ⟨_, h⟩
    have : s.size = 0 := by unfold Src.size; rw [h]; rfl
    have := h12.1
    omega
  have hmagic : slice s.bytes 0 4 = ascii "RIFF" := by
    show ((riffFile size form cs).drop 0).take 4 = _
    rw [ascii_riff]
    simp [riffFile, ascii_riff]
  unfold openReader
  rw [if_neg hne]
  dsimp only
  rw [hmagic, if_neg (by rw [ascii_riff, ascii_flac]; decide), if_pos rfl]
  unfold openRiff
  rw [seek_at h12]
  dsimp only
  have hlen : cs.length < enough s := by
    have h1 := at_size h12
    have h2 := flatMap_length_ge (e := le32) (fun _ => rfl) hw
    unfold enough
    omega
  rw [walk_located s u32le le32 (fun _ => rfl) (fun n hn => by simpa using u32le_le32 hn []) cs hw _ 12 []
    h12 hlen]
  rfl

/-- **C45.** The same for AIFF files. -/
theorem aiff_chunks_found (kind : Kind) (size : Nat) (form : List UInt8)
    (hform : form = ascii "AIFF" ∨ form = ascii "AIFC")
    (cs : List (List UInt8 × List UInt8)) (hw : WellFormed cs) :
    let s : Src := { kind := kind, bytes := aiffFile size form cs }
    openReader s (enough s) = .ok (.aiff, located 12 cs) := by
  intro s
  have hfl : form.length = 4 := by rcases hform with rfl | rfl <;> decide +kernel
  have hat0 : At s 0 (ascii "FORM" ++ (be32 size ++ (form ++ cs.flatMap (encChunk be32)))) :=
    ⟨Nat.zero_le _, by
      show (aiffFile size form cs).drop 0 = _
      simp [aiffFile, List.append_assoc]⟩
  obtain ⟨r1, a1⟩ := readOne_at (size := 4) hat0 (by rw [ascii_form]; rfl) (by omega)
  obtain ⟨r2, a2⟩ := readOne_at (size := 4) a1 rfl (by omega)
  obtain ⟨r3, a3⟩ := readOne_at (size := 4) a2 hfl (by omega)
  have hne : ¬ (s.kind = .memory ∧ s.bytes = []) := by
    rintro ⟨_, h⟩
    have : s.size = 0 := by unfold Src.size; rw [h]; rfl
    have := a3.1
    omega
  have hmagic : slice s.bytes 0 4 = ascii "FORM" := by
    show ((aiffFile size form cs).drop 0).take 4 = _
    rw [ascii_form]
    simp [aiffFile, ascii_form]
  unfold openReader
  rw [if_neg hne]
  dsimp only
  rw [hmagic, if_neg (by rw [ascii_form, ascii_flac]; decide),
    if_neg (by rw [ascii_form, ascii_riff]; decide), if_pos rfl]
  unfold openAiff
  rw [r1]
  dsimp only
  rw [if_neg (by simp), r2]
  dsimp only
  rw [r3]
  dsimp only
  rw [if_neg (by rintro ⟨h1, h2⟩; rcases hform with h | h; exacts [h1 h, h2 h])]
  have hlen : cs.length < enough s := by
    have h1 := at_size a3
    have h2 := flatMap_length_ge (e := be32) (fun _ => rfl) hw
    unfold enough
    omega
  rw [walk_located s u32be be32 (fun _ => rfl) (fun n hn => by simpa using u32be_be32 hn []) cs hw _ _ []
    a3 hlen]
  rfl

/-- The data of a chunk lie where it is located. -/
theorem data_at {e : Nat → List UInt8} (he : ∀ n, (e n).length = 4) (s : Src)
    (cs : List (List UInt8 × List UInt8)) (hw : WellFormed cs) (pos : Nat)
    (h : At s pos (cs.flatMap (encChunk e))) (i : Nat) (c : List UInt8 × List UInt8)
    (hc : cs[i]? = some c) :
    ∃ o rest, (located pos cs)[i]? = some { offset := o, id := c.1, length := c.2.length } ∧
      At s o (c.2 ++ rest) := by
  induction cs generalizing pos i with
  | nil => simp at hc
  | cons d cs ih =>
    have hd := hw d (by simp)
    have hsplit : At s pos ((d.1 ++ e d.2.length) ++ (d.2 ++ ((if d.2.length % 2 = 1 then [0] else []) ++
        cs.flatMap (encChunk e)))) := by
      rw [List.flatMap_cons, encChunk_eq] at h
      simpa only [List.append_assoc] using h
    have h8 := at_append hsplit
    rw [List.length_append, he, hd.1] at h8
    cases i with
    | zero =>
      simp at hc
      subst hc
      exact ⟨pos + 8, _, rfl, h8⟩
    | succ i =>
      rw [List.flatMap_cons] at h
      have hnext := at_append h
      rw [encChunk_length he hd.1] at hnext
      obtain ⟨o, rest, h1, h2⟩ := ih (fun x hx => hw x (by simp [hx])) _ hnext i (by simpa using hc)
      refine ⟨o, rest, ?_, h2⟩
      simp only [located, List.getElem?_cons_succ]
      rw [show pos + 8 + d.2.length + d.2.length % 2 = pos + (8 + d.2.length + d.2.length % 2) by omega]
      exact h1

/-- The first chunk with a given name is found by that name. -/
theorem find_located {e : Nat → List UInt8} (he : ∀ n, (e n).length = 4) (s : Src)
    (cs : List (List UInt8 × List UInt8)) (hw : WellFormed cs) (pos : Nat)
    (h : At s pos (cs.flatMap (encChunk e))) (id data : List UInt8)
    (hfirst : cs.find? (fun c => c.1 == id) = some (id, data)) :
    ∃ o rest, chunkById (located pos cs) id = some { offset := o, id := id, length := data.length } ∧
      At s o (data ++ rest) := by
  induction cs generalizing pos with
  | nil => simp at hfirst
  | cons d cs ih =>
    have hd := hw d (by simp)
    rw [List.find?_cons] at hfirst
    unfold chunkById
    simp only [located, List.find?_cons]
    by_cases hdi : d.1 = id
    · have hb : (d.1 == id) = true := by simpa using hdi
      rw [hb] at hfirst
      cases hfirst
      obtain ⟨o, rest, h1, h2⟩ := data_at he s _ hw pos h 0 _ rfl
      simp only [located, List.getElem?_cons_zero] at h1
      rw [hb]
      exact ⟨o, rest, by simpa using h1, h2⟩
    · have hb : (d.1 == id) = false := by simpa using hdi
      rw [hb] at hfirst
      rw [hb]
      rw [List.flatMap_cons] at h
      have hnext := at_append h
      rw [encChunk_length he hd.1] at hnext
      obtain ⟨o, rest, h1, h2⟩ := ih (fun x hx => hw x (by simp [hx])) _ hnext hfirst
      refine ⟨o, rest, ?_, h2⟩
      rw [show pos + 8 + d.2.length + d.2.length % 2 = pos + (8 + d.2.length + d.2.length % 2) by omega]
      exact h1

/-- **C45.** Reading a found chunk gives its data, as much as is asked for. -/
theorem chunk_data_read (kind : Kind) (size : Nat) (form : List UInt8) (hform : form.length = 4)
    (cs : List (List UInt8 × List UInt8)) (hw : WellFormed cs) (i : Nat)
    (c : List UInt8 × List UInt8) (hc : cs[i]? = some c) (count : Nat) :
    let s : Src := { kind := kind, bytes := riffFile size form cs }
    ∃ ch, (located 12 cs)[i]? = some ch ∧ readRiffData s ch count = .ok (c.2.take count) := by
  intro s
  have hat0 : At s 0 (ascii "RIFF" ++ le32 size ++ form ++ cs.flatMap (encChunk le32)) :=
    ⟨Nat.zero_le _, rfl⟩
  have h12 : At s 12 (cs.flatMap (encChunk le32)) := by
    have := at_append hat0
    rwa [show 0 + (ascii "RIFF" ++ le32 size ++ form).length = 12 by
      simp [ascii_riff, le32, hform]] at this
  obtain ⟨o, rest, h1, h2⟩ := data_at (e := le32) (fun _ => rfl) s cs hw 12 h12 i c hc
  exact ⟨_, h1, readRiffData_at h2 count⟩

/-! ## FLAC files -/

/-- A metadata block: one that holds a RIFF chunk, or another one of a given type. -/
inductive FlacBlock where
  | riff (id data : List UInt8)
  | other (type : Nat) (payload : List UInt8)

def FlacBlock.type : FlacBlock → Nat
  | .riff _ _ => 2
  | .other t _ => t

def FlacBlock.payload : FlacBlock → List UInt8
  | .riff id data => ascii "riff" ++ (id ++ (le32 data.length ++ data))
  | .other _ p => p

def FlacBlock.encode (b : FlacBlock) (last : Bool) : List UInt8 :=
  be32 ((if last then 2147483648 else 0) + b.type * 16777216 + b.payload.length) ++ b.payload

/-- All blocks, the last of them marked. -/
def encodeBlocks : List FlacBlock → List UInt8
  | [] => []
  | [b] => b.encode true
  | b :: b' :: bs => b.encode false ++ encodeBlocks (b' :: bs)

/-- Blocks as the format allows them: sizes of 24 bits; application blocks begin with four letters,
which are `riff` only for RIFF chunks. -/
def FlacBlock.Fits : FlacBlock → Prop
  | .riff id data => id.length = 4 ∧ 12 + data.length < 16777216
  | .other t p => t < 128 ∧ p.length < 16777216 ∧
      (t = 2 → ∃ appId rest, p = appId ++ rest ∧ appId.length = 4 ∧ appId ≠ ascii "riff")

/-- The RIFF chunks and their places, when the first block starts at `pos`. -/
def locatedBlocks (pos : Nat) : List FlacBlock → List Chunk
  | [] => []
  | .riff id data :: bs =>
    { offset := pos + 16, id := id, length := data.length } :: locatedBlocks (pos + 16 + data.length) bs
  | .other _ p :: bs => locatedBlocks (pos + 4 + p.length) bs

theorem payload_bound {b : FlacBlock} (hb : b.Fits) : b.payload.length < 16777216 ∧ b.type < 128 := by
  cases b with
  | riff id data =>
    obtain ⟨h1, h2⟩ := hb
    refine ⟨?_, by simp [FlacBlock.type]⟩
    simp only [FlacBlock.payload, List.length_append, h1]
    have : (ascii "riff").length = 4 := by decide +kernel
    have : (le32 data.length).length = 4 := rfl
    omega
  | other t p => exact ⟨hb.2.1, hb.1⟩

theorem header_fields (t n : Nat) (last : Bool) (ht : t < 128) (hn : n < 16777216) :
    flacType (be32 ((if last then 2147483648 else 0) + t * 16777216 + n)) = t ∧
    flacSize (be32 ((if last then 2147483648 else 0) + t * 16777216 + n)) = n ∧
    flacLast (be32 ((if last then 2147483648 else 0) + t * 16777216 + n)) = last.toNat := by
  unfold flacType flacSize flacLast
  have key : ∀ m k : Nat, k ≤ 1 → m = 2147483648 * k →
      u32be (be32 (m + t * 16777216 + n)) / 16777216 % 128 = t ∧
      u32be (be32 (m + t * 16777216 + n)) % 16777216 = n ∧
      u32be (be32 (m + t * 16777216 + n)) / 2147483648 % 2 = k := by
    intro m k hk hm
    have := u32be_be32 (n := m + t * 16777216 + n) (by omega) []
    rw [List.append_nil] at this
    rw [this]
    omega
  cases last with
  | true => exact key 2147483648 1 (by omega) (by omega)
  | false => exact key 0 0 (by omega) (by omega)

theorem ascii_lower : ascii "riff" = [114, 105, 102, 102] := by decide +kernel

theorem riff_payload_length (id data : List UInt8) (hid : id.length = 4) :
    (FlacBlock.riff id data).payload.length = 12 + data.length := by
  simp only [FlacBlock.payload, List.length_append, hid, ascii_lower, le32, List.length_cons,
    List.length_nil]
  omega

theorem flacRiff_found (s : Src) (pos : Nat) (id data : List UInt8) (hid : id.length = 4)
    (hsz : 12 + data.length < 16777216) (rest : List UInt8)
    (h : At s pos ((FlacBlock.riff id data).payload ++ rest)) :
    flacRiff s pos (FlacBlock.riff id data).payload.length =
      .ok { offset := pos + 12, id := id, length := data.length } := by
  rw [riff_payload_length id data hid]
  have hx : At s pos (ascii "riff" ++ (id ++ (le32 data.length ++ (data ++ rest)))) := by
    unfold FlacBlock.payload at h
    simpa only [List.append_assoc] using h
  obtain ⟨q1, b1⟩ := readOne_at (size := 4) hx (by rw [ascii_lower]; rfl) (by omega)
  obtain ⟨q2, b2⟩ := readOne_at (size := 4) b1 hid (by omega)
  obtain ⟨q3, b3⟩ := readOne_at (size := 4) b2 (by simp [le32]) (by omega)
  have hle : u32le (le32 data.length) = data.length := by
    have := u32le_le32 (n := data.length) (by omega) []
    rwa [List.append_nil] at this
  unfold flacRiff
  rw [q1]
  dsimp only
  rw [if_neg (fun hh => hh rfl), q2]
  dsimp only
  rw [q3]
  dsimp only
  rw [hle, if_pos (by omega)]

theorem flacRiff_other (s : Src) (pos : Nat) (p : List UInt8)
    (hp : ∃ appId rest, p = appId ++ rest ∧ appId.length = 4 ∧ appId ≠ ascii "riff") (size : Nat)
    (rest : List UInt8) (h : At s pos (p ++ rest)) : flacRiff s pos size = .fail := by
  obtain ⟨appId, r, rfl, h4, hne⟩ := hp
  rw [List.append_assoc] at h
  obtain ⟨q1, b1⟩ := readOne_at (size := 4) h h4 (by omega)
  unfold flacRiff
  rw [q1]
  dsimp only
  rw [if_pos hne]

theorem walkFlac_block (s : Src) (fuel pos : Nat) (acc : List Chunk) (b : FlacBlock) (hb : b.Fits)
    (last : Bool) (rest hd : List UInt8) (h4 : hd.length = 4) (h1 : flacType hd = b.type)
    (h2 : flacSize hd = b.payload.length) (h3 : flacLast hd = last.toNat)
    (h : At s pos (hd ++ (b.payload ++ rest))) :
    At s (pos + 4 + b.payload.length) rest ∧
    walkFlac s (fuel + 1) pos acc =
      (if last then .ok (acc ++ locatedBlocks pos [b])
       else walkFlac s fuel (pos + 4 + b.payload.length) (acc ++ locatedBlocks pos [b])) := by
  obtain ⟨r1, a1⟩ := readOne_at (size := 4) h h4 (by omega)
  have a2 := at_append a1
  refine ⟨a2, ?_⟩
  rw [walkFlac, r1]
  simp only [h1, h2, h3]
  cases b with
  | riff id data =>
    have hfound := flacRiff_found s (pos + 4) id data hb.1 hb.2 rest a1
    rw [if_pos (show (FlacBlock.riff id data).type = 2 from rfl), hfound]
    dsimp only
    rw [seek_at a2]
    dsimp only
    cases last <;> simp [locatedBlocks]
  | other t p =>
    have hnone : locatedBlocks pos [FlacBlock.other t p] = [] := rfl
    rw [hnone, List.append_nil]
    have hfound : (if (FlacBlock.other t p).type = 2 then
        flacRiff s (pos + 4) (FlacBlock.other t p).payload.length else .fail) = .fail := by
      split
      · rename_i h2
        exact flacRiff_other s (pos + 4) p (hb.2.2 h2) _ rest a1
      · rfl
    rw [hfound]
    dsimp only
    rw [seek_at a2]
    cases last <;> simp

theorem walkFlac_step (s : Src) (fuel pos : Nat) (acc : List Chunk) (b : FlacBlock) (hb : b.Fits)
    (last : Bool) (rest : List UInt8) (h : At s pos (b.encode last ++ rest)) :
    At s (pos + 4 + b.payload.length) rest ∧
    walkFlac s (fuel + 1) pos acc =
      (if last then .ok (acc ++ locatedBlocks pos [b])
       else walkFlac s fuel (pos + 4 + b.payload.length) (acc ++ locatedBlocks pos [b])) := by
  obtain ⟨hp, ht⟩ := payload_bound hb
  unfold FlacBlock.encode at h
  rw [List.append_assoc] at h
  obtain ⟨h1, h2, h3⟩ := header_fields b.type b.payload.length last ht hp
  exact walkFlac_block s fuel pos acc b hb last rest _ (by simp [be32]) h1 h2 h3 h

theorem locatedBlocks_cons (pos : Nat) (b : FlacBlock) (hb : b.Fits) (bs : List FlacBlock) :
    locatedBlocks pos (b :: bs) =
      locatedBlocks pos [b] ++ locatedBlocks (pos + 4 + b.payload.length) bs := by
  cases b with
  | riff id data =>
    simp only [locatedBlocks, List.cons_append, List.nil_append]
    congr 2
    simp only [FlacBlock.payload, List.length_append, hb.1]
    have : (ascii "riff").length = 4 := by decide +kernel
    have : (le32 data.length).length = 4 := rfl
    omega
  | other t p => rfl

theorem walkFlac_located (s : Src) (bs : List FlacBlock) (hne : bs ≠ []) (hb : ∀ b ∈ bs, b.Fits)
    (fuel pos : Nat) (acc : List Chunk) (rest : List UInt8) (h : At s pos (encodeBlocks bs ++ rest))
    (hf : bs.length ≤ fuel) : walkFlac s fuel pos acc = .ok (acc ++ locatedBlocks pos bs) := by
  induction bs generalizing fuel pos acc with
  | nil => exact absurd rfl hne
  | cons b bs ih =>
    obtain ⟨fuel, rfl⟩ : ∃ f, fuel = f + 1 := ⟨fuel - 1, by simp at hf; omega⟩
    cases bs with
    | nil =>
      have := (walkFlac_step s fuel pos acc b (hb b (by simp)) true rest h).2
      simpa using this
    | cons b' bs =>
      have h' : At s pos (b.encode false ++ (encodeBlocks (b' :: bs) ++ rest)) := by
        simpa [encodeBlocks, List.append_assoc] using h
      obtain ⟨a, e⟩ := walkFlac_step s fuel pos acc b (hb b (by simp)) false _ h'
      rw [e, if_neg (by simp), ih (by simp) (fun x hx => hb x (by simp [hx])) fuel _ _ a
        (by simpa using hf), locatedBlocks_cons pos b (hb b (by simp)) (b' :: bs), List.append_assoc]

theorem encodeBlocks_length (bs : List FlacBlock) : bs.length ≤ (encodeBlocks bs).length := by
  induction bs with
  | nil => simp
  | cons b bs ih =>
    have : ∀ l, 1 ≤ (b.encode l).length := by
      intro l
      simp [FlacBlock.encode, be32]
    cases bs with
    | nil => simpa [encodeBlocks] using this true
    | cons b' bs =>
      have := this false
      simp only [encodeBlocks, List.length_append, List.length_cons] at ih ⊢
      omega

/-- **C45.** Of a FLAC file exactly the embedded RIFF chunks are found, whatever the other metadata
blocks and the sound data hold. -/
theorem flac_chunks_found (kind : Kind) (bs : List FlacBlock) (hne : bs ≠ [])
    (hb : ∀ b ∈ bs, b.Fits) (sound : List UInt8) :
    let s : Src := { kind := kind, bytes := ascii "fLaC" ++ (encodeBlocks bs ++ sound) }
    openReader s (enough s) = .ok (.riff, locatedBlocks 4 bs) := by
  intro s
  have hat0 : At s 0 (ascii "fLaC" ++ (encodeBlocks bs ++ sound)) := ⟨Nat.zero_le _, rfl⟩
  have h4 := at_append hat0
  rw [show 0 + (ascii "fLaC").length = 4 by decide +kernel] at h4
  have hnil : ¬ (s.kind = .memory ∧ s.bytes = []) := by
    rintro ⟨_, h⟩
    have : s.size = 0 := by unfold Src.size; rw [h]; rfl
    have := h4.1
    omega
  have hmagic : slice s.bytes 0 4 = ascii "fLaC" := by
    show ((ascii "fLaC" ++ (encodeBlocks bs ++ sound)).drop 0).take 4 = _
    rw [ascii_flac]
    rfl
  unfold openReader
  rw [if_neg hnil]
  dsimp only
  rw [hmagic, if_pos rfl]
  unfold openFlac
  rw [seek_at h4]
  dsimp only
  have h1 := at_size h4
  have h2 := encodeBlocks_length bs
  rw [List.length_append] at h1
  rw [walkFlac_located s bs hne hb _ 4 [] sound h4 (by unfold enough; omega)]
  rfl

example : FlacBlock.Fits (.riff (ascii "smpl") [1, 2, 3]) ∧ FlacBlock.Fits (.other 0 [1, 2]) ∧
    locatedBlocks 4 [.other 0 [1, 2], .riff (ascii "smpl") [1, 2, 3], .other 4 [7]] =
      [{ offset := 26, id := ascii "smpl", length := 3 }] :=
  ⟨⟨by decide +kernel, by decide⟩, ⟨by decide, by decide, by intro h; cases h⟩, by decide +kernel⟩

/-! ## Loops of a `smpl` chunk -/

/-- A loop as written in a `smpl` chunk; `last` is the last frame of the loop. -/
structure SmplLoop where
  cuePoint : Nat
  type : Nat
  start : Nat
  last : Nat
  fraction : Nat
  playCount : Nat

def SmplLoop.words (l : SmplLoop) : List Nat :=
  [l.cuePoint, l.type, l.start, l.last, l.fraction, l.playCount]

structure Smpl where
  manufacturer : Nat
  product : Nat
  period : Nat
  unityNote : Nat
  pitchFraction : Nat
  smpteFormat : Nat
  smpteOffset : Nat
  samplerData : Nat
  loops : List SmplLoop

def Smpl.words (x : Smpl) : List Nat :=
  [x.manufacturer, x.product, x.period, x.unityNote, x.pitchFraction, x.smpteFormat, x.smpteOffset,
    x.loops.length, x.samplerData] ++ x.loops.flatMap SmplLoop.words

/-- The bytes of the chunk. -/
def Smpl.encode (x : Smpl) : List UInt8 := x.words.flatMap le32

def Smpl.Fits (x : Smpl) : Prop := ∀ w ∈ x.words, w < 4294967296

theorem words_flatMap_get (ws : List Nat) (hw : ∀ w ∈ ws, w < 4294967296) (rest : List UInt8) (k : Nat)
    (hk : k < ws.length) : u32le (slice (ws.flatMap le32 ++ rest) (4 * k) 4) = ws.getD k 0 := by
  induction ws generalizing k with
  | nil => simp at hk
  | cons w ws ih =>
    cases k with
    | zero =>
      simp only [slice, List.flatMap_cons, Nat.mul_zero, List.drop_zero]
      have : (le32 w ++ ws.flatMap le32 ++ rest).take 4 = le32 w := by
        rw [List.append_assoc]
        exact List.take_left' rfl
      rw [this]
      simpa using u32le_le32 (hw w (by simp)) []
    | succ k =>
      have := ih (fun x hx => hw x (by simp [hx])) k (by simpa using hk)
      simp only [slice, List.flatMap_cons, List.append_assoc] at this ⊢
      rw [show 4 * (k + 1) = 4 + 4 * k by omega, ← List.drop_drop,
        show (le32 w ++ (ws.flatMap le32 ++ rest)).drop 4 = ws.flatMap le32 ++ rest from rfl]
      simpa using this

theorem words_length (ws : List Nat) : (ws.flatMap le32).length = 4 * ws.length := by
  induction ws with
  | nil => rfl
  | cons w ws ih =>
    rw [List.flatMap_cons, List.length_append, ih, List.length_cons]
    simp only [le32, List.length_cons, List.length_nil]
    omega

theorem extract_word (ws : List Nat) (hw : ∀ w ∈ ws, w < 4294967296) (k : Nat) (hk : k < 105) :
    extractU32 ((ws.flatMap le32).take 420) (4 * k) = some (ws.getD k 0) := by
  have htake : (ws.flatMap le32).take 420 = (ws.take 105).flatMap le32 := by
    have hsplit : ws.flatMap le32 = (ws.take 105).flatMap le32 ++ (ws.drop 105).flatMap le32 := by
      rw [← List.flatMap_append, List.take_append_drop]
    rw [hsplit]
    by_cases h105 : 105 ≤ ws.length
    · apply List.take_left'
      rw [words_length, List.length_take]
      omega
    · rw [show ws.drop 105 = [] from List.drop_eq_nil_of_le (by omega)]
      simp only [List.flatMap_nil, List.append_nil]
      apply List.take_of_length_le
      rw [words_length, List.length_take]
      omega
  have hsub : ∀ w ∈ ws.take 105, w < 4294967296 := fun w h => hw w (List.mem_of_mem_take h)
  rw [htake]
  unfold extractU32
  rw [if_neg (by omega), words_length, List.length_take]
  by_cases hlt : k < ws.length
  · rw [if_neg (by omega)]
    have := words_flatMap_get (ws.take 105) hsub [] k (by rw [List.length_take]; omega)
    rw [List.append_nil] at this
    rw [this]
    simp only [List.getD_eq_getElem?_getD, List.getElem?_take_of_lt hk]
  · rw [if_pos (by omega)]
    rw [List.getD_eq_getElem?_getD, List.getElem?_eq_none (by omega)]
    rfl

theorem loop_word (loops : List SmplLoop) (i j : Nat) (l : SmplLoop) (hl : loops[i]? = some l)
    (hj : j < 6) : (loops.flatMap SmplLoop.words).getD (6 * i + j) 0 = l.words.getD j 0 := by
  induction loops generalizing i with
  | nil => simp at hl
  | cons m loops ih =>
    rw [List.flatMap_cons]
    cases i with
    | zero =>
      simp at hl
      subst hl
      rw [List.getD_eq_getElem?_getD, List.getElem?_append_left (by simpa [SmplLoop.words] using hj),
        ← List.getD_eq_getElem?_getD]
      simp
    | succ i =>
      have := ih i (by simpa using hl)
      rw [List.getD_eq_getElem?_getD, List.getElem?_append_right (by
        simp only [SmplLoop.words, List.length_cons, List.length_nil]; omega),
        show 6 * (i + 1) + j - m.words.length = 6 * i + j by
          simp only [SmplLoop.words, List.length_cons, List.length_nil]; omega,
        ← List.getD_eq_getElem?_getD]
      exact this

/-- What the engine is to make of a loop: its kind, its first frame, the frame after its last. -/
def SmplLoop.meaning (l : SmplLoop) : Loop :=
  { mode := if l.type = 0 then .forward else if l.type = 1 then .alternating
      else if l.type = 2 then .backward else .none
    start := l.start
    stop := (l.last + 1) % 4294967296
    count := l.playCount }

theorem smplLoop_meaning (x : Smpl) (hx : x.Fits) (i : Nat) (hi : i < 16) (l : SmplLoop)
    (hl : x.loops[i]? = some l) : smplLoop (x.encode.take 420) i = some l.meaning := by
  have word : ∀ j < 6, extractU32 (x.encode.take 420) (36 + i * 24 + 4 * j) = some (l.words.getD j 0) := by
    intro j hj
    have h1 := extract_word x.words hx (9 + (6 * i + j)) (by omega)
    rw [show 4 * (9 + (6 * i + j)) = 36 + i * 24 + 4 * j by omega] at h1
    unfold Smpl.encode
    rw [h1]
    congr 1
    rw [← loop_word x.loops i j l hl hj]
    unfold Smpl.words
    simp only [List.getD_eq_getElem?_getD]
    rw [List.getElem?_append_right (by simp), show 9 + (6 * i + j) -
      [x.manufacturer, x.product, x.period, x.unityNote, x.pitchFraction, x.smpteFormat,
        x.smpteOffset, x.loops.length, x.samplerData].length = 6 * i + j by
        simp only [List.length_cons, List.length_nil]; omega]
  unfold smplLoop
  dsimp only
  have w1 := word 1 (by omega)
  have w2 := word 2 (by omega)
  have w3 := word 3 (by omega)
  have w5 := word 5 (by omega)
  simp only [SmplLoop.words, List.getD_cons_succ, List.getD_cons_zero] at w1 w2 w3 w5
  rw [show 0x2c - 8 + i * 24 + 0x04 = 36 + i * 24 + 4 * 1 by omega, w1,
    show 0x2c - 8 + i * 24 + 0x08 = 36 + i * 24 + 4 * 2 by omega, w2,
    show 0x2c - 8 + i * 24 + 0x0c = 36 + i * 24 + 4 * 3 by omega, w3,
    show 0x2c - 8 + i * 24 + 0x14 = 36 + i * 24 + 4 * 5 by omega, w5]
  simp only [Option.bind_eq_bind, Option.bind_some, Option.pure_def, Option.some.injEq]
  unfold SmplLoop.meaning
  congr 1
  match l.type with
  | 0 => rfl
  | 1 => rfl
  | 2 => rfl
  | (n + 3) => simp

theorem mapM_range_some {β : Type} (f : Nat → Option β) (l : List β) (n : Nat) (hn : n ≤ l.length)
    (h : ∀ i b, i < n → l[i]? = some b → f i = some b) : (List.range n).mapM f = some (l.take n) := by
  induction n with
  | zero => simp
  | succ n ih =>
    have hlt : n < l.length := by omega
    rw [List.range_succ, List.mapM_append, ih (by omega) (fun i b hi hb => h i b (by omega) hb)]
    simp only [List.mapM_cons, List.mapM_nil]
    rw [h n l[n] (by omega) (List.getElem?_eq_getElem hlt)]
    simp only [Option.bind_eq_bind, Option.bind_some, Option.pure_def, Option.some.injEq]
    rw [List.take_succ_eq_append_getElem hlt]

/-- **C45.** The instrument data read from a `smpl` chunk are those written in it, for the first 16
loops. -/
theorem smpl_read (x : Smpl) (hx : x.Fits) :
    smplInstrument (x.encode.take 420) = some {
      gain := 1, basenote := x.unityNote % 256,
      detune := (x.pitchFraction * 100 + 2147483648) / 4294967296,
      velocityLo := 0, velocityHi := 127, keyLo := 0, keyHi := 127,
      loops := (x.loops.take 16).map SmplLoop.meaning } := by
  unfold smplInstrument
  have w3 := extract_word x.words hx 3 (by omega)
  have w4 := extract_word x.words hx 4 (by omega)
  have w7 := extract_word x.words hx 7 (by omega)
  simp only [Smpl.words, List.cons_append, List.getD_cons_succ, List.getD_cons_zero] at w3 w4 w7
  have e : x.encode.take 420 = (x.words.flatMap le32).take 420 := rfl
  have w3' : extractU32 (x.encode.take 420) (0x14 - 8) = some x.unityNote := w3
  have w4' : extractU32 (x.encode.take 420) (0x18 - 8) = some x.pitchFraction := w4
  have w7' : extractU32 (x.encode.take 420) (0x24 - 8) = some x.loops.length := w7
  rw [w3', w4', w7']
  simp only [Option.bind_eq_bind, Option.bind_some]
  have hm := mapM_range_some (smplLoop (x.encode.take 420)) (x.loops.map SmplLoop.meaning)
    (min 16 x.loops.length) (by simp) (by
      intro i b hi hb
      rw [List.getElem?_map] at hb
      cases hl : x.loops[i]? with
      | none => rw [hl] at hb; cases hb
      | some l =>
        rw [hl] at hb
        cases hb
        exact smplLoop_meaning x hx i (by omega) l hl)
  rw [hm]
  simp only [Option.bind_some, Option.pure_def, Option.some.injEq]
  congr 1
  rw [← List.map_take]
  congr 1
  by_cases h : x.loops.length ≤ 16
  · rw [List.take_of_length_le h, List.take_of_length_le (by omega)]
  · rw [show min 16 x.loops.length = 16 by omega]

/-- **C45.** From the file to the engine: the loop of a RIFF sample is the first loop of its first
`smpl` chunk, and its end is that loop's last frame, or the last frame of the sound if the loop is
longer. -/
theorem smpl_loop_used (kind : Kind) (size : Nat) (form : List UInt8) (hform : form.length = 4)
    (cs : List (List UInt8 × List UInt8)) (hw : WellFormed cs) (x : Smpl) (hx : x.Fits)
    (hfirst : cs.find? (fun c => c.1 == ascii "smpl") = some (ascii "smpl", x.encode))
    (frames : Nat) (l : SmplLoop) (hl : x.loops.head? = some l) :
    let s : Src := { kind := kind, bytes := riffFile size form cs }
    ∃ ins, extractInstrument s .riff (located 12 cs) = .ok ins ∧
      (information frames true (some ins)).loop = some (l.start, min (frames - 1) l.last) ∧
      (information frames true (some ins)).rootKey = min (x.unityNote % 256) 127 := by
  intro s
  have hat0 : At s 0 (ascii "RIFF" ++ le32 size ++ form ++ cs.flatMap (encChunk le32)) :=
    ⟨Nat.zero_le _, rfl⟩
  have h12 : At s 12 (cs.flatMap (encChunk le32)) := by
    have := at_append hat0
    rwa [show 0 + (ascii "RIFF" ++ le32 size ++ form).length = 12 by
      simp [ascii_riff, le32, hform]] at this
  obtain ⟨o, rest, hfind, hat⟩ := find_located (e := le32) (fun _ => rfl) s cs hw 12 h12 _ _ hfirst
  have hread : readRiffData s { offset := o, id := ascii "smpl", length := x.encode.length } 420 =
      .ok (x.encode.take 420) := readRiffData_at hat 420
  refine ⟨{
      gain := 1, basenote := x.unityNote % 256,
      detune := (x.pitchFraction * 100 + 2147483648) / 4294967296,
      velocityLo := 0, velocityHi := 127, keyLo := 0, keyHi := 127,
      loops := (x.loops.take 16).map SmplLoop.meaning }, ?_, ?_, ?_⟩
  · unfold extractInstrument extractRiff
    rw [if_neg (by simp), hfind]
    dsimp only
    rw [hread]
    dsimp only
    rw [smpl_read x hx]
  · cases hls : x.loops with
    | nil => rw [hls] at hl; cases hl
    | cons a t =>
      rw [hls] at hl
      cases hl
      have hlast : l.last < 4294967296 := hx _ (by simp [Smpl.words, hls, SmplLoop.words])
      have hs : ((l.last + 1) % 4294967296 + 4294967296 - 1) % 4294967296 = l.last := by omega
      have hm : ((l :: t).take 16).map SmplLoop.meaning = l.meaning :: (t.take 15).map SmplLoop.meaning := by
        rw [List.take_succ_cons, List.map_cons]
      simp only [information, if_true]
      rw [hm]
      simp only [SmplLoop.meaning]
      rw [hs]
  · rfl

/-- A file with a loop from frame 100 to frame 4999. -/
def smplExample : Smpl :=
  { manufacturer := 0, product := 0, period := 22675, unityNote := 60, pitchFraction := 0,
    smpteFormat := 0, smpteOffset := 0, samplerData := 0,
    loops := [{ cuePoint := 1, type := 0, start := 100, last := 4999, fraction := 0, playCount := 0 }] }

example : let cs := [(ascii "fmt ", [1, 0, 1, 0]), (ascii "smpl", smplExample.encode), (ascii "data", [1, 2, 3])]
    let s : Src := { kind := .memory, bytes := riffFile 99 (ascii "WAVE") cs }
    openReader s (enough s) = .ok (.riff, located 12 cs) ∧
    ((extractInstrument s .riff (located 12 cs)).map fun ins =>
      (information 6000 true (some ins)).loop) = .ok (some (100, 4999)) := by decide +kernel

/-! ## Markers and loops of an AIFF file -/

structure Marker where
  id : Nat
  position : Nat
  name : List UInt8

def Marker.encode (m : Marker) (last : Bool) : List UInt8 :=
  be16 m.id ++ be32 m.position ++ [UInt8.ofNat m.name.length] ++ m.name ++
    (if m.name.length % 2 = 0 ∧ last = false then [0] else [])

def encodeMarkers : List Marker → List UInt8
  | [] => []
  | [m] => m.encode true
  | m :: m' :: ms => m.encode false ++ encodeMarkers (m' :: ms)

/-- Markers as a file can hold them — with a name. -/
def Marker.Fits (m : Marker) : Prop :=
  m.id < 65536 ∧ m.position < 4294967296 ∧ 0 < m.name.length ∧ m.name.length < 256

theorem readMarkers_encoded (s : Src) (ms : List Marker) (hm : ∀ m ∈ ms, m.Fits) (pos : Nat)
    (rest : List UInt8) (acc : Markers) (h : At s pos (encodeMarkers ms ++ rest)) :
    readMarkers s ms.length pos acc = .ok ((ms.map fun m => (m.id, m.position)).reverse ++ acc) := by
  induction ms generalizing pos acc with
  | nil => simp [readMarkers]
  | cons m ms ih =>
    obtain ⟨h1, h2, h3, h4⟩ := hm m (by simp)
    -- the bytes of this marker, the pad, and what follows
    obtain ⟨pad, tail, hpad, htail, hlen⟩ : ∃ pad tail : List UInt8,
        At s pos (be16 m.id ++ (be32 m.position ++ ([UInt8.ofNat m.name.length] ++ (m.name ++
          (pad ++ (tail ++ rest)))))) ∧ tail = encodeMarkers ms ∧
        pad.length = if ms.length ≠ 0 ∧ m.name.length % 2 = 0 then 1 else 0 := by
      cases ms with
      | nil =>
        refine ⟨[], [], ?_, rfl, rfl⟩
        simp only [encodeMarkers, Marker.encode] at h
        simpa [List.append_assoc] using h
      | cons m' ms =>
        refine ⟨if m.name.length % 2 = 0 then [0] else [], encodeMarkers (m' :: ms), ?_, rfl, ?_⟩
        · simp only [encodeMarkers, Marker.encode] at h
          simpa [List.append_assoc] using h
        · by_cases hz : m.name.length % 2 = 0 <;> simp [hz]
    simp only [List.length_cons, readMarkers]
    obtain ⟨r1, a1⟩ := readOne_at (size := 2) hpad rfl (by omega)
    rw [r1]
    dsimp only
    obtain ⟨r2, a2⟩ := readOne_at (size := 4) a1 rfl (by omega)
    rw [r2]
    dsimp only
    obtain ⟨r3, a3⟩ := readOne_at (size := 1) a2 rfl (by omega)
    rw [r3]
    dsimp only
    have hsz : (([UInt8.ofNat m.name.length] : List UInt8).getD 0 0).toNat = m.name.length := by
      simp only [List.getD_cons_zero, u8_toNat]
      omega
    rw [hsz]
    obtain ⟨r4, a4⟩ := readOne_at (size := m.name.length) a3 rfl h3
    rw [r4]
    dsimp only
    have e1 : u16be (be16 m.id) = m.id := by simpa using u16be_be16 h1 []
    have e2 : u32be (be32 m.position) = m.position := by simpa using u32be_be32 h2 []
    rw [e1, e2]
    have a5 := at_append a4
    subst htail
    by_cases hc : ms.length ≠ 0 ∧ m.name.length % 2 = 0
    · rw [if_pos hc]
      rw [if_pos hc] at hlen
      rw [hlen] at a5
      rw [seek_at a5]
      dsimp only
      rw [ih (fun x hx => hm x (by simp [hx])) _ _ a5]
      simp [List.append_assoc]
    · rw [if_neg hc]
      rw [if_neg hc] at hlen
      rw [hlen, Nat.add_zero] at a5
      rw [ih (fun x hx => hm x (by simp [hx])) _ _ a5]
      simp [List.append_assoc]

/-- The position a marker id stands for: that of the last marker with the id, or the beginning. -/
def markerPosition (ms : List Marker) (id : Nat) : Nat :=
  match ms.reverse.find? (fun m => m.id == id) with
  | some m => m.position
  | none => 0

theorem lookup_markers (ms : List Marker) (id : Nat) :
    lookupMarker (ms.map fun m => (m.id, m.position)).reverse id = markerPosition ms id := by
  unfold lookupMarker markerPosition
  rw [← List.map_reverse]
  generalize ms.reverse = l
  induction l with
  | nil => rfl
  | cons m l ih =>
    rw [List.map_cons, List.lookup_cons, List.find?_cons]
    by_cases h : id = m.id
    · subst h
      simp
    · have h1 : (id == m.id) = false := by simpa using h
      have h2 : (m.id == id) = false := by simpa using fun h' => h h'.symm
      rw [h1, h2]
      exact ih

/-- The 20 bytes of an `INST` chunk with one sustain loop and no release loop. -/
def instBytes (note detune keyLo keyHi velLo velHi gain mode first last : Nat) : List UInt8 :=
  [UInt8.ofNat note, UInt8.ofNat detune, UInt8.ofNat keyLo, UInt8.ofNat keyHi, UInt8.ofNat velLo,
    UInt8.ofNat velHi] ++ be16 gain ++ be16 mode ++ be16 first ++ be16 last ++ [0, 0, 0, 0, 0, 0]

/-- **C45.** The sustain loop of an AIFF sample: its kind and the positions of the markers that the
`INST` chunk names, wherever the two chunks are in the file. -/
theorem aiff_loop_read (kind : Kind) (size : Nat) (form : List UInt8)
    (hform : form = ascii "AIFF" ∨ form = ascii "AIFC")
    (cs : List (List UInt8 × List UInt8)) (hw : WellFormed cs) (ms : List Marker)
    (hm : ∀ m ∈ ms, m.Fits) (hn : ms.length < 65536)
    (note detune keyLo keyHi velLo velHi gain mode first last : Nat)
    (hmode : mode = 1 ∨ mode = 2) (hfirst : first < 65536) (hlast : last < 65536)
    (hinst : cs.find? (fun c => c.1 == ascii "INST") = some (ascii "INST",
      instBytes note detune keyLo keyHi velLo velHi gain mode first last))
    (hmark : cs.find? (fun c => c.1 == ascii "MARK") = some (ascii "MARK",
      be16 ms.length ++ encodeMarkers ms)) :
    let s : Src := { kind := kind, bytes := aiffFile size form cs }
    ∃ ins, extractInstrument s .aiff (located 12 cs) = .ok ins ∧ ins.basenote = note % 256 ∧
      ins.loops = [{
        mode := if mode = 1 then .forward else .backward,
        start := markerPosition ms first, stop := markerPosition ms last, count := 0 }] := by
  intro s
  have hfl : form.length = 4 := by rcases hform with rfl | rfl <;> decide +kernel
  have hat0 : At s 0 (ascii "FORM" ++ be32 size ++ form ++ cs.flatMap (encChunk be32)) :=
    ⟨Nat.zero_le _, rfl⟩
  have h12 : At s 12 (cs.flatMap (encChunk be32)) := by
    have := at_append hat0
    rwa [show 0 + (ascii "FORM" ++ be32 size ++ form).length = 12 by
      simp [ascii_form, be32, hfl]] at this
  obtain ⟨oi, ri, hfi, hai⟩ := find_located (e := be32) (fun _ => rfl) s cs hw 12 h12 _ _ hinst
  obtain ⟨om, rm, hfm, ham⟩ := find_located (e := be32) (fun _ => rfl) s cs hw 12 h12 _ _ hmark
  have hread : readRiffData s { offset := oi, id := ascii "INST", length :=
      (instBytes note detune keyLo keyHi velLo velHi gain mode first last).length } 20 =
      .ok (instBytes note detune keyLo keyHi velLo velHi gain mode first last) :=
    readRiffData_at hai 20
  have hmarkers : markersOf s (located 12 cs) =
      .ok (ms.map fun m => (m.id, m.position)).reverse := by
    unfold markersOf
    rw [hfm]
    dsimp only
    rw [seek_at ham]
    dsimp only
    rw [List.append_assoc] at ham
    obtain ⟨r1, a1⟩ := readOne_at (size := 2) ham rfl (by omega)
    rw [r1]
    dsimp only
    rw [show u16be (be16 ms.length) = ms.length by simpa using u16be_be16 hn [],
      readMarkers_encoded s ms hm _ rm [] a1, List.append_nil]
  refine ⟨instInstrument (instBytes note detune keyLo keyHi velLo velHi gain mode first last)
    (ms.map fun m => (m.id, m.position)).reverse, ?_, ?_, ?_⟩
  · unfold extractInstrument extractRiff
    rw [if_pos (by simp)]
    dsimp only
    unfold extractAiff
    rw [if_neg (by simp), hfi]
    dsimp only
    rw [hread]
    dsimp only
    rw [if_neg (by simp [instBytes, be16]), hmarkers]
    rfl
  · simp [instInstrument, instBytes, be16]
  · have f1 : u16be (slice (instBytes note detune keyLo keyHi velLo velHi gain mode first last) 8 2) = mode := by
      have : u16be (be16 mode) = mode := by
        simpa using u16be_be16 (n := mode) (by omega) []
      exact this
    have f2 : u16be (slice (instBytes note detune keyLo keyHi velLo velHi gain mode first last) 10 2) = first := by
      have : u16be (be16 first) = first := by simpa using u16be_be16 hfirst []
      exact this
    have f3 : u16be (slice (instBytes note detune keyLo keyHi velLo velHi gain mode first last) 12 2) = last := by
      have : u16be (be16 last) = last := by simpa using u16be_be16 hlast []
      exact this
    have f4 : u16be (slice (instBytes note detune keyLo keyHi velLo velHi gain mode first last) 14 2) = 0 := by
      rfl
    simp only [instInstrument, instLoops, Nat.zero_mul, Nat.one_mul, Nat.add_zero]
    rw [show 8 + 6 = 14 from rfl, f4, show 8 + 2 = 10 from rfl, show 8 + 4 = 12 from rfl, f1, f2, f3,
      lookup_markers, lookup_markers]
    rcases hmode with rfl | rfl <;> simp

/-- Two markers of the same number: the later one counts. -/
example :
    let ms : List Marker := [⟨1, 100, [65]⟩, ⟨2, 200, [65, 66]⟩, ⟨1, 150, [67]⟩]
    let cs := [(ascii "COMM", [0, 1]), (ascii "MARK", be16 ms.length ++ encodeMarkers ms),
      (ascii "SSND", [1, 2, 3]), (ascii "INST", instBytes 60 0 0 127 0 127 0 1 1 2)]
    let s : Src := { kind := .file, bytes := aiffFile 99 (ascii "AIFF") cs }
    openReader s (enough s) = .ok (.aiff, located 12 cs) ∧
    ((extractInstrument s .aiff (located 12 cs)).map fun ins => ins.loops) =
      .ok [{ mode := .forward, start := 150, stop := 200, count := 0 }] := by decide +kernel

end Verif.Metadata
