import Verif.AudioReader.Frames

/-!
# Whatever the block sizes, the readers deliver the file once, in order (C44), and sample memory
# is filled with it (C61)
-/

namespace Verif.AudioReader

variable {α : Type}

/-! ## Specification -/

/-- The file delivers `len` whole frames, at most as many as it declares (fewer: the file is
truncated). -/
def Delivers (f : File α) (len : Nat) : Prop :=
  0 < f.channels ∧ f.samples.length = len * f.channels ∧ len ≤ f.declared

/-- Channel `c` of the frame heard at time `i` when the `len` frames of the file are played
forwards or backwards. -/
def played (f : File α) (len : Nat) (backwards : Bool) (i c : Nat) : Option α :=
  if backwards then f.samples[(len - 1 - i) * f.channels + c]? else f.samples[i * f.channels + c]?

/-! ## One call -/

/-- The reader has delivered the first `k` of the `len` frames. -/
def At (f : File α) (len : Nat) (backwards : Bool) (r : Reader α) (k : Nat) : Prop :=
  k ≤ len ∧
    match r with
    | .forward pos => backwards = false ∧ pos = k
    | .reverse position => backwards = true ∧ len = f.declared ∧ position = len - k
    | .noSeek none _ => backwards = true ∧ k = 0
    | .noSeek (some b) left => backwards = true ∧ b = f.samples ∧ left = len - k
    | .dummy => False

theorem div_frames {ch n : Nat} (h : 0 < ch) : n * ch / ch = n := Nat.mul_div_cancel _ h

theorem readF32_length {f : File α} {len : Nat} (hd : Delivers f len) (pos n : Nat) :
    (readF32 f pos n).length = min n (len - pos) * f.channels := by
  unfold readF32
  rw [List.length_take, List.length_drop, hd.2.1, ← Nat.sub_mul, Nat.mul_min_mul_right]

theorem readF32_get {f : File α} (pos n i c : Nat) (hi : i < n) (hc : c < f.channels) :
    (readF32 f pos n)[i * f.channels + c]? = f.samples[(pos + i) * f.channels + c]? := by
  unfold readF32
  rw [List.getElem?_take_of_lt (idx_lt hi hc), List.getElem?_drop, Nat.add_mul]
  congr 1
  omega

theorem readF32_all {f : File α} {len : Nat} (hd : Delivers f len) :
    readF32 f 0 f.declared = f.samples := by
  unfold readF32
  rw [Nat.zero_mul, List.drop_zero, List.take_of_length_le]
  rw [hd.2.1]
  exact Nat.mul_le_mul_right _ hd.2.2

/-- What one call does: `m` frames are reported and written, they are the next `m` frames of the
sound, and the reader has moved by as much. -/
structure Steps (f : File α) (len : Nat) (backwards : Bool) (k m : Nat) (b : Block α) : Prop where
  frames : b.frames = m
  length : b.written.length = m * f.channels
  content : ∀ i < m, ∀ c < f.channels,
    b.written[i * f.channels + c]? = played f len backwards (k + i) c
  after : At f len backwards b.reader (k + m)

theorem reversed_part {f : File α} {len k m : Nat} (data : List α)
    (hlen : data.length = m * f.channels) (hkm : k + m ≤ len)
    (hdata : ∀ i < m, ∀ c < f.channels,
      data[i * f.channels + c]? = f.samples[(len - k - m + i) * f.channels + c]?) :
    ∀ i < m, ∀ c < f.channels,
      (reverseFrames data m f.channels)[i * f.channels + c]? = played f len true (k + i) c := by
  intro i hi c hc
  rw [reverseFrames_get data m f.channels hlen i c hi hc, hdata _ (by omega) c hc]
  unfold played
  rw [if_pos rfl]
  congr 2
  congr 1
  omega

theorem noSeek_loaded {f : File α} {len : Nat} (hd : Delivers f len) {k : Nat}
    (hk : k ≤ len) (n : Nat) :
    Steps f len true k (min n (len - k)) (readNoSeek f (some f.samples) (len - k) n) := by
  unfold readNoSeek
  dsimp only
  by_cases hz : min n (len - k) = 0
  · rw [if_pos hz]
    refine ⟨hz.symm, by simp [hz], ?_, ?_⟩
    · intro i hi
      omega
    · rw [hz]
      exact ⟨hk, rfl, rfl, rfl⟩
  · rw [if_neg hz]
    have hsub : f.channels * (len - k) - f.channels * (len - k - min n (len - k)) =
        min n (len - k) * f.channels := by
      rw [← Nat.mul_sub, Nat.mul_comm]
      congr 1
      omega
    have hdl : ((f.samples.drop (f.channels * (len - k - min n (len - k)))).take
        (min n (len - k) * f.channels)).length = min n (len - k) * f.channels := by
      rw [List.length_take, List.length_drop, hd.2.1, Nat.mul_comm f.channels, ← Nat.sub_mul,
        Nat.mul_min_mul_right]
      congr 1
      omega
    rw [hsub]
    refine ⟨rfl, reverseFrames_length _ _ _ hdl, ?_, ⟨by omega, rfl, rfl, by omega⟩⟩
    refine reversed_part _ hdl (by omega) ?_
    intro i hi c hc
    rw [List.getElem?_take_of_lt (idx_lt hi hc), List.getElem?_drop, Nat.mul_comm f.channels,
      Nat.add_mul]
    congr 1
    omega

theorem readNextBlock_steps {f : File α} {len : Nat} (hd : Delivers f len) {backwards : Bool}
    {r : Reader α} {k : Nat} (hat : At f len backwards r k) (n : Nat) :
    Steps f len backwards k (min n (len - k)) (readNextBlock f r n) := by
  obtain ⟨hk, hr⟩ := hat
  match r, hr with
  | .forward pos, hr =>
    obtain ⟨rfl, rfl⟩ := hr
    simp only [readNextBlock, readForward]
    have hl := readF32_length hd pos n
    refine ⟨?_, hl, ?_, ?_⟩
    · dsimp only
      rw [hl, div_frames hd.1]
      split <;> omega
    · intro i hi c hc
      dsimp only
      rw [readF32_get pos n i c (by omega) hc]
      simp [played]
    · dsimp only
      rw [hl, div_frames hd.1]
      exact ⟨by omega, rfl, rfl⟩
  | .reverse position, hr =>
    obtain ⟨rfl, hlen, rfl⟩ := hr
    simp only [readNextBlock, readReverse]
    by_cases hz : min n (len - k) = 0
    · rw [if_pos hz]
      refine ⟨hz.symm, by simp [hz], ?_, ?_⟩
      · intro i hi
        omega
      · rw [hz]
        exact ⟨hk, rfl, hlen, rfl⟩
    · rw [if_neg hz]
      have hl := readF32_length hd (len - k - min n (len - k)) (min n (len - k))
      have hm : min (min n (len - k)) (len - (len - k - min n (len - k))) = min n (len - k) := by
        omega
      rw [hm] at hl
      rw [if_neg (by rw [hl, div_frames hd.1]; simp)]
      refine ⟨rfl, reverseFrames_length _ _ _ hl, ?_, ⟨by omega, rfl, hlen, by omega⟩⟩
      refine reversed_part _ hl (by omega) ?_
      intro i hi c hc
      exact readF32_get _ _ i c hi hc
  | .noSeek (some b) left, hr =>
    obtain ⟨rfl, rfl, rfl⟩ := hr
    exact noSeek_loaded hd hk n
  | .noSeek none left, hr =>
    obtain ⟨rfl, rfl⟩ := hr
    have h := noSeek_loaded hd hk n
    have heq : readNextBlock f (.noSeek none left) n =
        readNoSeek f (some f.samples) (len - 0) n := by
      simp only [readNextBlock, readNoSeek, readF32_all hd, hd.2.1, div_frames hd.1, Nat.sub_zero]
    rw [heq]
    exact h

theorem createReader_at (f : File α) {len : Nat} (backwards fastSeeking : Bool)
    (hlen : backwards = true → fastSeeking = true → len = f.declared) :
    At f len backwards (createReader f backwards fastSeeking) 0 := by
  refine ⟨Nat.zero_le _, ?_⟩
  cases backwards <;> cases fastSeeking <;> simp [createReader]
  · exact ⟨by simpa using hlen, by simpa using (hlen rfl rfl).symm⟩

/-! ## C44: any sequence of block sizes -/

theorem readerAfter_at {f : File α} {len : Nat} (hd : Delivers f len) {backwards : Bool}
    {r : Reader α} {k : Nat} (hat : At f len backwards r k) (sizes : List Nat) :
    At f len backwards (readerAfter f r sizes) (min (k + sizes.sum) len) := by
  induction sizes generalizing r k with
  | nil =>
    have := hat.1
    simpa [readerAfter, Nat.min_eq_left this] using hat
  | cons n ns ih =>
    have hs := readNextBlock_steps hd hat n
    have := ih hs.after
    rw [readerAfter]
    have hk := hat.1
    rw [List.sum_cons]
    have he : min (k + min n (len - k) + ns.sum) len = min (k + (n + ns.sum)) len := by omega
    rw [he] at this
    exact this

theorem collect_spec {f : File α} {len : Nat} (hd : Delivers f len) {backwards : Bool}
    {r : Reader α} {k : Nat} (hat : At f len backwards r k) (sizes : List Nat) :
    (collect f r sizes).length = min sizes.sum (len - k) * f.channels ∧
    ∀ i < min sizes.sum (len - k), ∀ c < f.channels,
      (collect f r sizes)[i * f.channels + c]? = played f len backwards (k + i) c := by
  induction sizes generalizing r k with
  | nil => simp [collect]
  | cons n ns ih =>
    have hk := hat.1
    have hs := readNextBlock_steps hd hat n
    obtain ⟨hl, hg⟩ := ih hs.after
    rw [collect]
    rw [hs.frames, List.take_of_length_le (by rw [hs.length])]
    constructor
    · rw [List.length_append, hs.length, hl, ← Nat.add_mul, List.sum_cons]
      congr 1
      omega
    · intro i hi c hc
      rw [List.sum_cons] at hi
      by_cases him : i < min n (len - k)
      · rw [List.getElem?_append_left (by rw [hs.length]; exact idx_lt him hc)]
        exact hs.content i him c hc
      · rw [List.getElem?_append_right (by rw [hs.length]; exact idx_ge (by omega)), hs.length]
        have hsub : i * f.channels + c - min n (len - k) * f.channels =
            (i - min n (len - k)) * f.channels + c := by
          rw [Nat.sub_mul]
          have : min n (len - k) * f.channels ≤ i * f.channels :=
            Nat.mul_le_mul_right _ (by omega)
          omega
        rw [hsub, hg _ (by omega) c hc]
        congr 1
        omega

/-- **C44.** For every file that delivers the frames it declares, every number of channels, either
direction and either reading method, and every sequence of block sizes: the frames collected are
the first `min (sum of sizes) (frames in the file)` frames of the sound in that direction — frame
`i` is frame `i` of the file, or frame `last − i` when reading backwards — with the channels of
each frame in place, none missing and none repeated. -/
theorem blocks_deliver_file {f : File α} (hd : Delivers f f.declared)
    (backwards fastSeeking : Bool) (sizes : List Nat) :
    let out := collect f (createReader f backwards fastSeeking) sizes
    let total := min sizes.sum f.declared
    out.length = total * f.channels ∧
    ∀ i < total, ∀ c < f.channels,
      out[i * f.channels + c]? =
        f.samples[(if backwards then f.declared - 1 - i else i) * f.channels + c]? := by
  have hat := createReader_at f (len := f.declared) backwards fastSeeking (fun _ _ => rfl)
  obtain ⟨h1, h2⟩ := collect_spec hd hat sizes
  refine ⟨by simpa using h1, ?_⟩
  intro i hi c hc
  have := h2 i (by simpa using hi) c hc
  rw [Nat.zero_add] at this
  rw [this]
  cases backwards <;> simp [played]

/-- **C44**, the count each call reports: as much as was asked, until the file is used up; and
from then on nothing, forever. -/
theorem block_count {f : File α} (hd : Delivers f f.declared) (backwards fastSeeking : Bool)
    (sizes : List Nat) (n : Nat) :
    (readNextBlock f (readerAfter f (createReader f backwards fastSeeking) sizes) n).frames =
      min n (f.declared - sizes.sum) := by
  have hat := createReader_at f (len := f.declared) backwards fastSeeking (fun _ _ => rfl)
  have h := readNextBlock_steps hd (readerAfter_at hd hat sizes) n
  rw [h.frames]
  omega

/-- **C44.** The two ways of reading backwards, chosen by file format, deliver the same sound. -/
theorem reverse_readers_agree {f : File α} (hd : Delivers f f.declared) (sizes : List Nat) :
    collect f (createReader f true true) sizes = collect f (createReader f true false) sizes := by
  obtain ⟨h1, h2⟩ := blocks_deliver_file hd true true sizes
  obtain ⟨h3, h4⟩ := blocks_deliver_file hd true false sizes
  apply List.ext_getElem?
  intro p
  by_cases hp : p < min sizes.sum f.declared * f.channels
  · have hsplit : p / f.channels * f.channels + p % f.channels = p := by
      rw [Nat.mul_comm]
      exact Nat.div_add_mod p f.channels
    have hq : p / f.channels < min sizes.sum f.declared :=
      (Nat.div_lt_iff_lt_mul hd.1).2 hp
    have hc := Nat.mod_lt p hd.1
    have a := h2 _ hq _ hc
    have b := h4 _ hq _ hc
    rw [hsplit] at a b
    rw [a, b]
  · rw [List.getElem?_eq_none (by rw [h1]; omega), List.getElem?_eq_none (by rw [h3]; omega)]

/-- A three channel file of four frames. -/
def sampleFile : File Nat :=
  { channels := 3, declared := 4, samples := [10, 11, 12, 20, 21, 22, 30, 31, 32, 40, 41, 42] }

example : Delivers sampleFile sampleFile.declared := ⟨by decide, by decide, by decide⟩

example : collect sampleFile (createReader sampleFile true true) [3, 0, 5] =
    [40, 41, 42, 30, 31, 32, 20, 21, 22, 10, 11, 12] := by decide

/-- When a file is truncated the two backwards readers disagree: the one for fast-seeking formats
gives nothing at all, the other the part that could be decoded. -/
theorem reverse_readers_agree_violated :
    ∃ (f : File Nat) (sizes : List Nat), Delivers f 2 ∧ f.declared = 3 ∧
      collect f (createReader f true true) sizes = [] ∧
      collect f (createReader f true false) sizes = [20, 21, 10, 11] :=
  ⟨{ channels := 2, declared := 3, samples := [10, 11, 20, 21] }, [1, 1, 1],
    ⟨by decide, by decide, by decide⟩, rfl, by decide, by decide⟩

/-! ## C61: sample memory -/

/-- The value of channel `c` at frame `i` of a buffer. -/
def sampleOf (channels : List (List α)) (c i : Nat) : Option α := (channels[c]?).bind fun l => l[i]?

theorem overwrite_get_left {buffer written : List α} (h : written.length ≤ buffer.length) {i : Nat}
    (hi : i < written.length) : (overwrite buffer written)[i]? = written[i]? := by
  unfold overwrite
  rw [List.take_of_length_le h, List.getElem?_append_left hi]

theorem overwrite_get_right {buffer written : List α} (h : written.length ≤ buffer.length) {i : Nat}
    (hi : written.length ≤ i) : (overwrite buffer written)[i]? = buffer[i]? := by
  unfold overwrite
  rw [List.take_of_length_le h, List.getElem?_append_right hi, List.getElem?_drop]
  congr 1
  omega

theorem overwrite_length {buffer written : List α} (h : written.length ≤ buffer.length) :
    (overwrite buffer written).length = buffer.length := by
  unfold overwrite
  rw [List.take_of_length_le h, List.length_append, List.length_drop]
  omega

theorem deinterleave_get (side : Nat) (hs : side < 2) (l : List α) (i : Nat)
    (h : 2 * i + 1 < l.length) : (deinterleave side l)[i]? = l[i * 2 + side]? := by
  induction i generalizing l with
  | zero =>
    match l, h with
    | a :: b :: rest, _ =>
      rcases (by omega : side = 0 ∨ side = 1) with rfl | rfl <;> simp [deinterleave]
  | succ i ih =>
    match l, h with
    | a :: b :: rest, h =>
      rw [deinterleave, List.getElem?_cons_succ, ih rest (by simp at h; omega)]
      have : (i + 1) * 2 + side = (i * 2 + side) + 1 + 1 := by omega
      rw [this, List.getElem?_cons_succ, List.getElem?_cons_succ]

/-- **C61**, the preloaded head: for mono and stereo files, each direction and reading method, the
memory filled by preloading `n` frames holds frame `i` of the sound at frame `i`, and silence
after the end of what the file delivers. -/
theorem preload_content (zero : α) {f : File α} {len : Nat} (hd : Delivers f len)
    (hch : f.channels = 1 ∨ f.channels = 2) (backwards fastSeeking : Bool)
    (hlen : backwards = true → fastSeeking = true → len = f.declared) (n : Nat) :
    ∀ c < f.channels, ∀ i < n,
      sampleOf (readBaseFile zero f (createReader f backwards fastSeeking) n) c i =
        if i < len then played f len backwards i c else some zero := by
  have hs := readNextBlock_steps hd (createReader_at f backwards fastSeeking hlen) n
  rw [Nat.sub_zero] at hs
  obtain ⟨_, hl, hg, _⟩ := hs
  intro c hc i hi
  unfold readBaseFile sampleOf
  generalize hw : (readNextBlock f (createReader f backwards fastSeeking) n).written = w at *
  rcases hch with h1 | h2
  · rw [if_pos h1]
    rw [h1] at hl hg hc
    have hc0 : c = 0 := by omega
    subst hc0
    simp only [List.getElem?_cons_zero, Option.bind_some]
    have hle : w.length ≤ (List.replicate n zero).length := by
      rw [List.length_replicate, hl]
      omega
    by_cases h : i < len
    · rw [if_pos h, overwrite_get_left hle (by rw [hl]; omega)]
      have := hg i (by omega) 0 (by omega)
      simpa using this
    · rw [if_neg h, overwrite_get_right hle (by rw [hl]; omega)]
      simp [hi]
  · rw [if_neg (by omega), if_pos h2]
    rw [h2] at hl hg hc
    have hle : w.length ≤ (List.replicate (2 * n) zero).length := by
      rw [List.length_replicate, hl]
      omega
    have hsel : ((([deinterleave 0 (overwrite (List.replicate (2 * n) zero) w),
        deinterleave 1 (overwrite (List.replicate (2 * n) zero) w)] : List (List α))[c]?).bind
          fun l => l[i]?) = (overwrite (List.replicate (2 * n) zero) w)[i * 2 + c]? := by
      have hlen2 := overwrite_length hle
      rw [List.length_replicate] at hlen2
      rcases (by omega : c = 0 ∨ c = 1) with rfl | rfl
      · simp only [List.getElem?_cons_zero, Option.bind_some]
        exact deinterleave_get 0 (by omega) _ i (by omega)
      · simp only [List.getElem?_cons_succ, List.getElem?_cons_zero, Option.bind_some]
        exact deinterleave_get 1 (by omega) _ i (by omega)
    dsimp only
    rw [hsel]
    by_cases h : i < len
    · rw [if_pos h, overwrite_get_left hle (by rw [hl]; omega)]
      have := hg i (by omega) c hc
      simpa using this
    · rw [if_neg h, overwrite_get_right hle (by rw [hl]; omega)]
      rw [List.getElem?_replicate, if_pos (by omega)]

theorem writeChannel_length (ch chan : Nat) (block output : List α) (p count : Nat) :
    (writeChannel ch chan block output p count).length = output.length := by
  induction count with
  | zero => rfl
  | succ i ih =>
    rw [writeChannel]
    split <;> simp [ih]

theorem writeChannel_get (ch chan : Nat) (block output : List α) (p count : Nat)
    (hch : chan < ch) (hb : block.length = count * ch) (hfit : p + count ≤ output.length)
    (i : Nat) :
    (writeChannel ch chan block output p count)[i]? =
      if p ≤ i ∧ i < p + count then block[(i - p) * ch + chan]? else output[i]? := by
  suffices H : ∀ m ≤ count, (writeChannel ch chan block output p m)[i]? =
      if p ≤ i ∧ i < p + m then block[(i - p) * ch + chan]? else output[i]? from H count le_rfl
  intro m hm
  induction m with
  | zero =>
    rw [if_neg (by omega)]
    rfl
  | succ m ih =>
    have hlt := idx_lt (n := count) (q := m) (by omega) hch
    have hsome : block[m * ch + chan]? = some (block[m * ch + chan]'(by rw [hb]; exact hlt)) :=
      List.getElem?_eq_getElem _
    rw [writeChannel, hsome]
    dsimp only
    by_cases hi : i = p + m
    · subst hi
      rw [List.getElem?_set_self (by rw [writeChannel_length]; omega), if_pos (by omega)]
      have : p + m - p = m := by omega
      rw [this, hsome]
    · rw [List.getElem?_set_ne (by omega), ih (by omega)]
      by_cases hin : p ≤ i ∧ i < p + m
      · rw [if_pos hin, if_pos (by omega)]
      · rw [if_neg hin, if_neg (by omega)]

/-- What the output holds when `k` of the `len` frames are in place. -/
structure Filled (zero : α) (f : File α) (len : Nat) (backwards : Bool) (k : Nat)
    (st : Streaming α) : Prop where
  count : st.filledFrames = k
  channels : st.output.length = f.channels
  content : ∀ c < f.channels, ∀ i < f.declared,
    sampleOf st.output c i = if i < k then played f len backwards i c else some zero
  size : ∀ o ∈ st.output, o.length = f.declared

theorem streamLoop_filled (zero : α) {f : File α} {len : Nat} (hd : Delivers f len)
    {backwards : Bool} {chunk : Nat} (hchunk : 0 < chunk) {r : Reader α} {pos : Nat}
    (hat : At f len backwards r pos) {st : Streaming α}
    (hf : Filled zero f len backwards pos st) :
    Filled zero f len backwards len (streamLoop f chunk f.declared r pos st) := by
  induction h : f.declared - pos using Nat.strong_induction_on generalizing r pos st with
  | _ d ih =>
    have hpos := hat.1
    have hle := hd.2.2
    rw [streamLoop]
    by_cases hlt : pos < f.declared
    · rw [dif_pos hlt]
      have hs := readNextBlock_steps hd hat (min chunk (f.declared - pos))
      dsimp only
      generalize readNextBlock f r (min chunk (f.declared - pos)) = b at hs
      obtain ⟨hfr, hl, hg, hafter⟩ := hs
      by_cases hz : b.frames = 0
      · rw [dif_pos hz]
        have : len = pos := by omega
        rw [this] at hf ⊢
        exact hf
      · rw [dif_neg hz]
        have hcount : min b.frames (min chunk (f.declared - pos)) = b.frames := by omega
        rw [hcount]
        have hf' : Filled zero f len backwards (pos + b.frames)
            { output := st.output.mapIdx fun c o =>
                writeChannel f.channels c b.written o pos b.frames
              filledFrames := st.filledFrames + b.frames } := by
          refine ⟨by rw [hf.count], by simp [hf.channels], ?_, ?_⟩
          · intro c hc i hi
            have hcl : c < st.output.length := by rw [hf.channels]; exact hc
            have hold := hf.content c hc i hi
            unfold sampleOf at hold ⊢
            dsimp only
            rw [List.getElem?_mapIdx, List.getElem?_eq_getElem hcl]
            rw [List.getElem?_eq_getElem hcl] at hold
            simp only [Option.map_some, Option.bind_some] at hold ⊢
            have hsz := hf.size _ (List.getElem_mem hcl)
            rw [writeChannel_get _ _ _ _ _ _ hc (by rw [hl, hfr]) (by rw [hsz]; omega)]
            by_cases hin : pos ≤ i ∧ i < pos + b.frames
            · rw [if_pos hin, if_pos hin.2, hg (i - pos) (by omega) c hc]
              congr 1
              omega
            · rw [if_neg hin, hold]
              by_cases hip : i < pos
              · rw [if_pos hip, if_pos (by omega)]
              · rw [if_neg hip, if_neg (by omega)]
          · intro o ho
            obtain ⟨c, hc⟩ := List.mem_iff_getElem?.1 ho
            dsimp only at hc
            rw [List.getElem?_mapIdx] at hc
            cases ho2 : st.output[c]? with
            | none => rw [ho2] at hc; cases hc
            | some o2 =>
              rw [ho2] at hc
              cases hc
              rw [writeChannel_length]
              exact hf.size _ (List.mem_of_getElem? ho2)
        by_cases hc : b.frames < min chunk (f.declared - pos)
        · rw [dif_neg (by simp [hc])]
          have : pos + b.frames = len := by omega
          rw [this] at hf'
          exact hf'
        · rw [dif_pos ⟨by simp [hc], hz⟩]
          rw [← hfr] at hafter
          exact ih (f.declared - (pos + b.frames)) (by omega) hafter hf' rfl
    · rw [dif_neg hlt]
      have : len = pos := by omega
      rw [this] at hf ⊢
      exact hf

/-- **C61**, the streamed sample: background loading with any positive chunk size puts frame `i` of
the sound at frame `i` of every channel — silence after the end of what the file delivers — and
reports exactly the delivered frames as available. -/
theorem stream_content (zero : α) {f : File α} {len : Nat} (hd : Delivers f len)
    (backwards fastSeeking : Bool) (hlen : backwards = true → fastSeeking = true → len = f.declared)
    {chunk : Nat} (hchunk : 0 < chunk) :
    let st := streamFromFile zero chunk f (createReader f backwards fastSeeking)
    st.filledFrames = len ∧
    ∀ c < f.channels, ∀ i < f.declared,
      sampleOf st.output c i = if i < len then played f len backwards i c else some zero := by
  have hat := createReader_at f backwards fastSeeking hlen
  have hinit : Filled zero f len backwards 0
      { output := List.replicate f.channels (List.replicate f.declared zero), filledFrames := 0 } := by
    refine ⟨rfl, by simp, ?_, ?_⟩
    · intro c hc i hi
      simp [sampleOf, hc, hi]
    · intro o ho
      rw [List.eq_of_mem_replicate ho, List.length_replicate]
  have h := streamLoop_filled zero hd hchunk hat hinit
  exact ⟨h.count, h.content⟩

/-- **C61.** The preloaded head is the beginning of the streamed sample: a voice which starts on the
preloaded data and continues on the streamed data hears one sound, whichever readers and chunk
size were used for the two. -/
theorem preload_is_head_of_stream (zero : α) {f : File α} (hd : Delivers f f.declared)
    (hch : f.channels = 1 ∨ f.channels = 2) (backwards fast₁ fast₂ : Bool) {chunk : Nat}
    (hchunk : 0 < chunk) (n : Nat) (hn : n ≤ f.declared) :
    ∀ c < f.channels, ∀ i < n,
      sampleOf (readBaseFile zero f (createReader f backwards fast₁) n) c i =
        sampleOf (streamFromFile zero chunk f (createReader f backwards fast₂)).output c i := by
  intro c hc i hi
  rw [preload_content zero hd hch backwards fast₁ (fun _ _ => rfl) n c hc i hi]
  exact ((stream_content zero hd backwards fast₂ (fun _ _ => rfl) hchunk).2 c hc i
    (by omega)).symm

/-- A stereo file of five frames. -/
def stereoFile : File Nat :=
  { channels := 2, declared := 5, samples := [1, 2, 3, 4, 5, 6, 7, 8, 9, 10] }

theorem stereoFile_delivers : Delivers stereoFile stereoFile.declared :=
  ⟨by decide, by decide, by decide⟩

example : readBaseFile 0 stereoFile (createReader stereoFile true true) 3 =
    [[9, 7, 5], [10, 8, 6]] := by decide

example : (streamFromFile 0 2 stereoFile (createReader stereoFile true false)).output =
    [[9, 7, 5, 3, 1], [10, 8, 6, 4, 2]] := by decide +kernel

/-! ## Switching RAM loading on

`FilePool::setRamLoading(true)` (FilePool.cpp:641-651) re-reads every preloaded file with
`readFromFile(*reader, fileData.information.end)`, and `information.end` is the index of the last
frame, `frames − 1` (FilePool.cpp:253), while `preloadFile` in RAM mode reads `frames`
(FilePool.cpp:326-332). -/

/-- The preloaded data after `setRamLoading(true)` of a file already preloaded. -/
def ramReload (zero : α) (f : File α) (r : Reader α) : List (List α) :=
  readBaseFile zero f r (f.declared - 1)

/-- The preloaded data of a file loaded while RAM loading is on. -/
def ramPreload (zero : α) (f : File α) (r : Reader α) : List (List α) :=
  readBaseFile zero f r f.declared

/-- The last frame is lost when RAM loading is switched on after the file was preloaded, although
the data is then flagged as complete. -/
theorem ram_switch_violated :
    ∃ f : File Nat, Delivers f f.declared ∧
      ramPreload 0 f (createReader f false true) = [[1, 2, 3]] ∧
      ramReload 0 f (createReader f false true) = [[1, 2]] :=
  ⟨{ channels := 1, declared := 3, samples := [1, 2, 3] }, ⟨by decide, by decide, by decide⟩,
    by decide, by decide⟩

end Verif.AudioReader
