import Verif.Effects.Lemmas

/-!
What each effect does to a block, as a function of the frames alone.
-/
namespace Verif.Effects

variable {K : Type} [Field K] [LinearOrder K] [FloorRing K]

/-- Two channels that do not meet. -/
def twoChannels {σ : Type} (f : σ → List K → σ × List K) (s : σ × σ) (xs : List (K × K)) : (σ × σ) × List (K × K) :=
  (((f s.1 (xs.map Prod.fst)).1, (f s.2 (xs.map Prod.snd)).1),
    (f s.1 (xs.map Prod.fst)).2.zip (f s.2 (xs.map Prod.snd)).2)

/-- One channel of the compressor or the gate, not linked. -/
def dynChannel {σ : Type} (coefs : List K) (core : σ → K → σ × K) (g : K) (s : σ × List (Stage K) × List (Stage K))
    (xs : List K) : (σ × List (Stage K) × List (Stage K)) × List K :=
  let u := upList coefs s.2.1 xs
  let l := u.2.map (· * g)
  let c := mapAccum core s.1 l
  let d := downList coefs s.2.2 (l.zipWith (· * ·) c.2)
  ((c.1, u.1, d.1), d.2)

/-- One channel of the limiter. -/
def limitChannel (coefs : List K) (k1 k3 k5 : K) (s : LimitCore K × List (Stage K) × List (Stage K)) (xs : List K) :
    (LimitCore K × List (Stage K) × List (Stage K)) × List K :=
  let u := upList coefs s.2.1 xs
  let c := mapAccum (limitStep k1 k3 k5) s.1 u.2
  let d := downList coefs s.2.2 c.2
  ((c.1, u.1, d.1), d.2)

/-- One channel of the bit reducer. -/
def bitChannel (coefs : List K) (f : Lofi K) (s : Bitred K) (xs : List K) : Bitred K × List K :=
  if f.bitDepth = 0 then (⟨0, silentStages coefs⟩, xs) else mapAccum (f.bitStep coefs) s xs

/-- One channel of the decimator. -/
def decimChannel (coefs : List K) (f : Lofi K) (s : Decim K) (xs : List K) : Decim K × List K :=
  if f.decimDepth = 0 then (⟨0, 0, silentStages coefs⟩, xs) else mapAccum (f.decimStep coefs) s xs

/-- One channel of `Lofi`. -/
def lofiChannel (coefs : List K) (f : Lofi K) (s : Bitred K × Decim K) (xs : List K) : (Bitred K × Decim K) × List K :=
  let a := bitChannel coefs f s.1 xs
  let b := decimChannel coefs f s.2 a.2
  ((a.1, b.1), b.2)

/-- One channel of the distortion, when its input is not its output. -/
def distoList {σ : Type} (d : DistoParams K σ) (s : Disto K σ) (xs : List K) : Disto K σ × List K :=
  let f := mapAccum (fun mem x => (x * d.dry * (1 - d.pole) + mem * d.pole, x * d.dry * (1 - d.pole) + mem * d.pole)) s.lpf xs
  let u := up8 d s.up f.2
  let v := mapAccum d.drive s.stages u.2
  let w := down8 d s.down v.2
  (⟨f.1, v.1, u.1, w.1⟩, w.2.zipWith (fun y x => y * d.wet + x * (1 - d.wet)) xs)

/-- One channel of the distortion, when its input is its output: the last loop reads what was written. -/
def distoListInPlace {σ : Type} (d : DistoParams K σ) (s : Disto K σ) (xs : List K) : Disto K σ × List K :=
  ((distoList d s xs).1, (down8 d s.down (mapAccum d.drive s.stages (up8 d s.up
    (mapAccum (fun mem x => (x * d.dry * (1 - d.pole) + mem * d.pole, x * d.dry * (1 - d.pole) + mem * d.pole))
      s.lpf xs).2).2).2).2.map fun y => y * d.wet + y * (1 - d.wet))

/-- A block of each effect, its input not being its output. -/
def Kind.block (cap : Nat) : (k : Kind K) → (k.effect cap).State → List (K × K) → (k.effect cap).State × List (K × K)
  | .gain lin => twoChannels (mapAccum fun _ x => ((), lin * x))
  | .width c1 c2 => mapAccum fun _ f => ((), (f.1 * c2 + f.2 * c1, f.1 * c1 + f.2 * c2))
  | .apan a => mapAccum fun ph f => ((a.lfo ph).1, a.frame (a.lfo ph).2 f)
  | .strings _ half wet res => mapAccum fun s f =>
      let r := res s (half * f.1 + half * f.2)
      (r.1, (f.1 + wet * r.2, f.2 + wet * r.2))
  | .rectify coefs amount => twoChannels (mapAccum (rectifyStep coefs amount))
  | .lofi coefs f => twoChannels (lofiChannel coefs f)
  | .dyn σ coefs core g linked => fun s xs =>
      if linked then
        let ul := upList coefs s.upL (xs.map Prod.fst)
        let ur := upList coefs s.upR (xs.map Prod.snd)
        let left := ul.2.map (· * g)
        let right := ur.2.map (· * g)
        let c := mapAccum core s.coreL (left.map fun x => |x| + |right.getD 1 0|)
        let dl := downList coefs s.downL (left.zipWith (· * ·) c.2)
        let dr := downList coefs s.downR (right.zipWith (· * ·) c.2)
        (⟨c.1, s.coreR, ul.1, ur.1, dl.1, dr.1⟩, dl.2.zip dr.2)
      else
        let l := dynChannel coefs core g (s.coreL, s.upL, s.downL) (xs.map Prod.fst)
        let r := dynChannel coefs core g (s.coreR, s.upR, s.downR) (xs.map Prod.snd)
        (⟨l.1.1, r.1.1, l.1.2.1, r.1.2.1, l.1.2.2, r.1.2.2⟩, l.2.zip r.2)
  | .limiter coefs k1 k3 k5 => fun s xs =>
      let l := limitChannel coefs k1 k3 k5 (s.coreL, s.upL, s.downL) (xs.map Prod.fst)
      let r := limitChannel coefs k1 k3 k5 (s.coreR, s.upR, s.downR) (xs.map Prod.snd)
      (⟨l.1.1, r.1.1, l.1.2.1, r.1.2.1, l.1.2.2, r.1.2.2⟩, l.2.zip r.2)
  | .disto _ d => twoChannels (distoList d)

/-- Buffers as a bus hands them out: the inputs and the outputs all different, or the same ones. -/
def Ports.apart (p : Ports) : Prop :=
  p.outL ≠ p.outR ∧ p.inL ≠ p.inR ∧ p.inL ≠ p.outL ∧ p.inL ≠ p.outR ∧ p.inR ≠ p.outL ∧ p.inR ≠ p.outR

def Ports.inPlace (p : Ports) : Prop := p.outL ≠ p.outR ∧ p.inL = p.outL ∧ p.inR = p.outR

/-- An effect does to a block, through the memory, what `f` does to its frames. -/
def Does (e : Effect K) (f : e.State → List (K × K) → e.State × List (K × K)) (n : Nat) (p : Ports) : Prop :=
  ∀ (s : e.State) (m : Mem K), e.process n p s m =
    some ((f s (frames n p.inL p.inR m)).1, writeFrames p.outL p.outR (f s (frames n p.inL p.inR m)).2 m)

theorem twoChannels_write {σ : Type} (f : σ → List K → σ × List K) (hf : ∀ s xs, (f s xs).2.length = xs.length)
    (s : σ × σ) (n a b oa ob : Nat) (m : Mem K) :
    writeFrames oa ob (twoChannels f s (frames n a b m)).2 m =
      write ob (f s.2 (read n b m)).2 (write oa (f s.1 (read n a m)).2 m) := by
  simp only [writeFrames, twoChannels, frames_fst, frames_snd]
  rw [List.map_fst_zip (by simp [hf, read_length]), List.map_snd_zip (by simp [hf, read_length])]

theorem two_of_channels {σ : Type} (step : σ → K → σ × K) (n : Nat) (p : Ports) (h : p.inR ≠ p.outL) (s : σ × σ) (m : Mem K) :
    channels step p n s m =
      ((twoChannels (mapAccum step) s (frames n p.inL p.inR m)).1,
        writeFrames p.outL p.outR (twoChannels (mapAccum step) s (frames n p.inL p.inR m)).2 m) := by
  rw [channels_eq step p h, twoChannels_write _ (mapAccum_length step)]
  simp [twoChannels, frames_fst, frames_snd]

theorem copyUnlessSame_eq (inp out n : Nat) (m : Mem K) : copyUnlessSame inp out n m = write out (read n inp m) m := by
  unfold copyUnlessSame
  by_cases h : inp = out
  · subst h
    simp [write_read_self]
  · simp [h]

theorem bitProcess_eq (coefs : List K) (f : Lofi K) (inp out n : Nat) (s : Bitred K) (m : Mem K) :
    f.bitProcess coefs inp out n s m =
      ((bitChannel coefs f s (read n inp m)).1, write out (bitChannel coefs f s (read n inp m)).2 m) := by
  unfold Lofi.bitProcess bitChannel
  split
  · rw [copyUnlessSame_eq]
  · exact channel_eq _ _ _ _ _ _

theorem decimProcess_eq (coefs : List K) (f : Lofi K) (inp out n : Nat) (s : Decim K) (m : Mem K) :
    f.decimProcess coefs inp out n s m =
      ((decimChannel coefs f s (read n inp m)).1, write out (decimChannel coefs f s (read n inp m)).2 m) := by
  unfold Lofi.decimProcess decimChannel
  split
  · rw [copyUnlessSame_eq]
  · exact channel_eq _ _ _ _ _ _

theorem bitChannel_length (coefs : List K) (f : Lofi K) (s : Bitred K) (xs : List K) :
    (bitChannel coefs f s xs).2.length = xs.length := by
  unfold bitChannel
  split
  · rfl
  · exact mapAccum_length _ _ _

theorem decimChannel_length (coefs : List K) (f : Lofi K) (s : Decim K) (xs : List K) :
    (decimChannel coefs f s xs).2.length = xs.length := by
  unfold decimChannel
  split
  · rfl
  · exact mapAccum_length _ _ _

theorem lofiChannel_eq (coefs : List K) (f : Lofi K) (inp out n : Nat) (s : Bitred K × Decim K) (m : Mem K) :
    f.channel coefs inp out n s m =
      ((lofiChannel coefs f s (read n inp m)).1, write out (lofiChannel coefs f s (read n inp m)).2 m) := by
  have hl : (bitChannel coefs f s.1 (read n inp m)).2.length = n := by rw [bitChannel_length, read_length]
  simp only [Lofi.channel, bitProcess_eq, decimProcess_eq, lofiChannel]
  rw [read_write_same hl, write_write (by rw [decimChannel_length])]

theorem lofiChannel_length (coefs : List K) (f : Lofi K) (s : Bitred K × Decim K) (xs : List K) :
    (lofiChannel coefs f s xs).2.length = xs.length := by
  simp [lofiChannel, bitChannel_length, decimChannel_length]

theorem up8_length {σ : Type} (d : DistoParams K σ) (s : List (Stage K) × List (Stage K) × List (Stage K)) (xs : List K) :
    (up8 d s xs).2.length = 8 * xs.length := by
  simp only [up8, upList_length]
  omega

theorem down8_length {σ : Type} (d : DistoParams K σ) (s : List (Stage K) × List (Stage K) × List (Stage K)) (xs : List K)
    (k : Nat) (h : xs.length = 8 * k) : (down8 d s xs).2.length = k := by
  have h1 : (downList d.c8 s.2.2 xs).2.length = 4 * k := downList_length _ _ _ _ (by omega)
  have h2 : (downList d.c4 s.2.1 (downList d.c8 s.2.2 xs).2).2.length = 2 * k := downList_length _ _ _ _ (by omega)
  exact downList_length _ _ _ _ (by omega)

/-- The wet part of a channel of the distortion. -/
theorem wet_length {σ : Type} (d : DistoParams K σ) (s : Disto K σ) (xs : List K) :
    (down8 d s.down (mapAccum d.drive s.stages (up8 d s.up
      (mapAccum (fun mem x => (x * d.dry * (1 - d.pole) + mem * d.pole, x * d.dry * (1 - d.pole) + mem * d.pole))
        s.lpf xs).2).2).2).2.length = xs.length := by
  apply down8_length
  rw [mapAccum_length, up8_length, mapAccum_length]

/-- The last loop of a channel, apart. -/
theorem mix_apart (wet : K) (inp out n : Nat) (h : inp ≠ out) (m : Mem K) :
    loop (fun i m => m.put out i (m out i * wet + m inp i * (1 - wet))) n m =
      write out ((read n out m).zipWith (fun y x => y * wet + x * (1 - wet)) (read n inp m)) m := by
  induction n with
  | zero => simp [loop, read, write_nil]
  | succ n ih =>
    simp only [loop]
    rw [ih, write_other h, write_beyond (by simp [read_length]), put_write (by simp [read_length]), read_succ, read_succ]
    congr 1
    rw [List.zipWith_append (by simp [read_length])]
    simp

/-- The last loop of a channel, in place. -/
theorem mix_inPlace (wet : K) (out n : Nat) (m : Mem K) :
    loop (fun i m => m.put out i (m out i * wet + m out i * (1 - wet))) n m =
      write out ((read n out m).map fun y => y * wet + y * (1 - wet)) m := by
  induction n with
  | zero => simp [loop, read, write_nil]
  | succ n ih =>
    simp only [loop]
    rw [ih, write_beyond (by simp [read_length]), put_write (by simp [read_length]), read_succ]
    simp

theorem distoChannel_apart {σ : Type} (d : DistoParams K σ) (inp out n : Nat) (h : inp ≠ out) (s : Disto K σ) (m : Mem K) :
    distoChannel d inp out n s m =
      ((distoList d s (read n inp m)).1, write out (distoList d s (read n inp m)).2 m) := by
  have hw := wet_length d s (read n inp m)
  simp only [distoChannel, channel_eq, distoList]
  rw [read_write_same (by rw [mapAccum_length, read_length]), mix_apart _ _ _ _ h]
  rw [read_write_same (by rw [hw, read_length]), read_write_other h, read_write_other h]
  rw [write_write (by rw [List.length_zipWith, hw]; simp), write_write (by rw [mapAccum_length, List.length_zipWith, hw]; simp)]

theorem distoChannel_inPlace {σ : Type} (d : DistoParams K σ) (out n : Nat) (s : Disto K σ) (m : Mem K) :
    distoChannel d out out n s m =
      ((distoListInPlace d s (read n out m)).1, write out (distoListInPlace d s (read n out m)).2 m) := by
  have hw := wet_length d s (read n out m)
  simp only [distoChannel, channel_eq, distoListInPlace, distoList]
  rw [read_write_same (by rw [mapAccum_length, read_length]), mix_inPlace]
  rw [read_write_same (by rw [hw, read_length])]
  rw [write_write (by rw [List.length_map, hw]), write_write (by rw [mapAccum_length, List.length_map, hw])]

theorem distoList_length {σ : Type} (d : DistoParams K σ) (s : Disto K σ) (xs : List K) :
    (distoList d s xs).2.length = xs.length := by
  simp only [distoList, List.length_zipWith]
  rw [wet_length]
  simp

theorem dynChannel_length {σ : Type} (coefs : List K) (core : σ → K → σ × K) (g : K)
    (s : σ × List (Stage K) × List (Stage K)) (xs : List K) : (dynChannel coefs core g s xs).2.length = xs.length := by
  apply downList_length
  simp [mapAccum_length, upList_length]

theorem limitChannel_length (coefs : List K) (k1 k3 k5 : K) (s : LimitCore K × List (Stage K) × List (Stage K)) (xs : List K) :
    (limitChannel coefs k1 k3 k5 s xs).2.length = xs.length := by
  apply downList_length
  simp [mapAccum_length, upList_length]

theorem block_length (cap : Nat) (k : Kind K) (s : (k.effect cap).State) (xs : List (K × K)) :
    (k.block cap s xs).2.length = xs.length := by
  cases k with
  | gain lin => simp [Kind.block, twoChannels, mapAccum_length]
  | width c1 c2 => exact mapAccum_length _ _ _
  | apan a => exact mapAccum_length _ _ _
  | strings σ half wet res => exact mapAccum_length _ _ _
  | rectify coefs amount => simp [Kind.block, twoChannels, mapAccum_length]
  | lofi coefs f => simp [Kind.block, twoChannels, lofiChannel_length]
  | dyn σ coefs core g linked =>
    cases linked with
    | true =>
      simp only [Kind.block, if_true, List.length_zip]
      rw [downList_length _ xs.length _ _ (by simp [mapAccum_length, upList_length]),
        downList_length _ xs.length _ _ (by simp [mapAccum_length, upList_length])]
      simp
    | false => simp [Kind.block, dynChannel_length]
  | limiter coefs k1 k3 k5 => simp [Kind.block, limitChannel_length]
  | disto σ d => simp [Kind.block, twoChannels, distoList_length]

/-! ### Each effect on its block -/

theorem does_gain (cap : Nat) (lin : K) (n : Nat) (p : Ports) (hn : n ≤ cap) (h : p.inR ≠ p.outL) :
    Does (Kind.effect cap (.gain lin)) (Kind.block cap (.gain lin)) n p := by
  intro (s : Unit × Unit) m
  simp only [Kind.effect, gainProcess, if_pos hn, Kind.block]
  exact congrArg some (two_of_channels _ _ _ h s m)

theorem does_width (cap : Nat) (c1 c2 : K) (n : Nat) (p : Ports) (hn : n ≤ cap) (h : p.outL ≠ p.outR) :
    Does (Kind.effect cap (.width c1 c2)) (Kind.block cap (.width c1 c2)) n p := by
  intro (s : Unit) m
  simp only [Kind.effect, widthProcess, if_pos hn, Kind.block]
  exact congrArg some (both_eq _ _ h _ s m)

theorem apan_lists (a : Apan K) (phase : K) (xs : List (K × K)) (rest : List (K × K)) :
    (a.lfos phase xs.length).1 = (mapAccum (fun ph f => ((a.lfo ph).1, a.frame (a.lfo ph).2 f)) phase xs).1 ∧
    (mapAccum (fun (todo : List (K × K)) f => (todo.tail, a.frame (todo.headD (0, 0)) f))
      ((a.lfos phase xs.length).2 ++ rest) xs).2 =
        (mapAccum (fun ph f => ((a.lfo ph).1, a.frame (a.lfo ph).2 f)) phase xs).2 := by
  induction xs generalizing phase with
  | nil => simp [Apan.lfos, mapAccum]
  | cons x xs ih =>
    obtain ⟨h1, h2⟩ := ih (a.lfo phase).1
    constructor
    · simpa [Apan.lfos, List.replicate_succ, mapAccum] using h1
    · simpa [Apan.lfos, List.replicate_succ, mapAccum] using h2

theorem does_apan (cap : Nat) (a : Apan K) (n : Nat) (p : Ports) (hn : n ≤ cap) (h : p.outL ≠ p.outR) :
    Does (Kind.effect cap (.apan a)) (Kind.block cap (.apan a)) n p := by
  intro (s : K) m
  obtain ⟨h1, h2⟩ := apan_lists a s (frames n p.inL p.inR m) []
  rw [frames_length] at h1 h2
  rw [List.append_nil] at h2
  simp only [Kind.effect, apanProcess, if_pos hn, both_eq _ _ h, Kind.block]
  rw [h1, h2]

theorem strings_lists {σ : Type} (half wet : K) (res : σ → K → σ × K) (s : σ) (xs : List (K × K)) :
    (mapAccum res s (xs.map fun f => half * f.1 + half * f.2)).1 =
      (mapAccum (fun s f => ((res s (half * f.1 + half * f.2)).1,
        (f.1 + wet * (res s (half * f.1 + half * f.2)).2, f.2 + wet * (res s (half * f.1 + half * f.2)).2))) s xs).1 ∧
    (xs.map Prod.fst).zipWith (fun x y => x + wet * y) (mapAccum res s (xs.map fun f => half * f.1 + half * f.2)).2 =
      (mapAccum (fun s f => ((res s (half * f.1 + half * f.2)).1,
        (f.1 + wet * (res s (half * f.1 + half * f.2)).2, f.2 + wet * (res s (half * f.1 + half * f.2)).2))) s xs).2.map
        Prod.fst ∧
    (xs.map Prod.snd).zipWith (fun x y => x + wet * y) (mapAccum res s (xs.map fun f => half * f.1 + half * f.2)).2 =
      (mapAccum (fun s f => ((res s (half * f.1 + half * f.2)).1,
        (f.1 + wet * (res s (half * f.1 + half * f.2)).2, f.2 + wet * (res s (half * f.1 + half * f.2)).2))) s xs).2.map
        Prod.snd := by
  induction xs generalizing s with
  | nil => simp [mapAccum]
  | cons x xs ih =>
    obtain ⟨h1, h2, h3⟩ := ih (res s (half * x.1 + half * x.2)).1
    refine ⟨?_, ?_, ?_⟩
    · simpa [mapAccum] using h1
    · simpa [mapAccum] using h2
    · simpa [mapAccum] using h3

theorem does_strings (cap : Nat) {σ : Type} (half wet : K) (res : σ → K → σ × K) (n : Nat) (p : Ports) (hn : n ≤ cap)
    (h : p.outL ≠ p.outR) (h' : p.inR ≠ p.outL) :
    Does (Kind.effect cap (.strings σ half wet res)) (Kind.block cap (.strings σ half wet res)) n p := by
  intro (s : σ) m
  have hz : (read n p.inL m).zipWith (fun l r => half * l + half * r) (read n p.inR m) =
      (frames n p.inL p.inR m).map fun f => half * f.1 + half * f.2 := by
    rw [frames, List.zip, List.map_zipWith]
  obtain ⟨h1, h2, h3⟩ := strings_lists half wet res s (frames n p.inL p.inR m)
  rw [frames_fst] at h2
  rw [frames_snd] at h3
  simp only [Kind.effect, stringsProcess, if_pos hn, Kind.block]
  rw [hz, h1]
  have e1 : read n p.inR (write p.outL (read n p.inL m) m) = read n p.inR m := read_write_other h'
  rw [e1]
  have e2 : read n p.outL (write p.outR (read n p.inR m) (write p.outL (read n p.inL m) m)) = read n p.inL m := by
    rw [read_write_other h, read_write_same (read_length _ _ _)]
  rw [e2, h2]
  have e3 : ∀ l : List K, read n p.outR (write p.outL l (write p.outR (read n p.inR m) (write p.outL (read n p.inL m) m))) =
      read n p.inR m := by
    intro l
    rw [read_write_other (Ne.symm h), read_write_same (read_length _ _ _)]
  rw [e3, h3]
  simp only [writeFrames]
  have l1 : ∀ t : List (K × K), t.length = n → (read n p.inL m).length = (t.map Prod.fst).length := by
    intro t ht
    simp [ht, read_length]
  have l2 : ∀ t : List (K × K), t.length = n → (read n p.inR m).length = (t.map Prod.snd).length := by
    intro t ht
    simp [ht, read_length]
  have hT := mapAccum_length (fun s (f : K × K) => ((res s (half * f.1 + half * f.2)).1,
        (f.1 + wet * (res s (half * f.1 + half * f.2)).2, f.2 + wet * (res s (half * f.1 + half * f.2)).2))) s
        (frames n p.inL p.inR m)
  rw [frames_length] at hT
  congr 2
  rw [write_comm h, write_write (l1 _ hT), write_write (l2 _ hT)]

theorem does_rectify (cap : Nat) (coefs : List K) (amount : K) (n : Nat) (p : Ports) (hn : n ≤ cap) (h : p.inR ≠ p.outL) :
    Does (Kind.effect cap (.rectify coefs amount)) (Kind.block cap (.rectify coefs amount)) n p := by
  intro (s : (List (Stage K) × List (Stage K)) × (List (Stage K) × List (Stage K))) m
  simp only [Kind.effect, rectifyProcess, if_pos hn, Kind.block]
  exact congrArg some (two_of_channels _ _ _ h s m)

theorem does_lofi (cap : Nat) (coefs : List K) (f : Lofi K) (n : Nat) (p : Ports) (h : p.inR ≠ p.outL) :
    Does (Kind.effect cap (.lofi coefs f)) (Kind.block cap (.lofi coefs f)) n p := by
  intro (s : (Bitred K × Decim K) × (Bitred K × Decim K)) m
  simp only [Kind.effect, lofiProcess, Kind.block, lofiChannel_eq]
  rw [read_write_other h, twoChannels_write _ (lofiChannel_length coefs f)]
  simp [twoChannels, frames_fst, frames_snd]

theorem does_disto_apart (cap : Nat) {σ : Type} (d : DistoParams K σ) (n : Nat) (p : Ports) (hn : n ≤ cap) (h : p.apart) :
    Does (Kind.effect cap (.disto σ d)) (Kind.block cap (.disto σ d)) n p := by
  intro (s : Disto K σ × Disto K σ) m
  obtain ⟨_, _, h1, _, h2, h3⟩ := h
  simp only [Kind.effect, distoProcess, if_pos hn, Kind.block]
  rw [distoChannel_apart d _ _ _ h1, distoChannel_apart d _ _ _ h3, read_write_other h2,
    twoChannels_write _ (distoList_length d)]
  simp [twoChannels, frames_fst, frames_snd]

theorem does_dyn (cap : Nat) {σ : Type} (coefs : List K) (core : σ → K → σ × K) (g : K) (linked : Bool) (n : Nat) (p : Ports)
    (h1 : 1 ≤ n) (hn : n ≤ cap) :
    Does (Kind.effect cap (.dyn σ coefs core g linked)) (Kind.block cap (.dyn σ coefs core g linked)) n p := by
  intro (s : Dyn K σ) m
  have hb : blockFrames n = n := by simp [blockFrames, h1]
  simp only [Kind.effect, dynProcess, hb, if_pos hn]
  have tl : ∀ (mem : List (Stage K)) (b : Nat), (upList coefs mem (read n b m)).2.take (2 * n) = (upList coefs mem (read n b m)).2 := by
    intro mem b
    apply List.take_of_length_le
    rw [upList_length, read_length]
  have dl : ∀ (mem : List (Stage K)) (b : Nat), (upList coefs mem (read n b m)).2.drop (2 * n) = [] := by
    intro mem b
    apply List.drop_of_length_le
    rw [upList_length, read_length]
  simp only [tl, dl, List.append_nil]
  have ll : ∀ (mem : List (Stage K)) (b : Nat), ((upList coefs mem (read n b m)).2.map (· * g)).length = 2 * n := by
    intro mem b
    simp [upList_length, read_length]
  cases linked with
  | true =>
    have hx : ∃ x xs, (upList coefs s.upL (read n p.inL m)).2.map (· * g) = x :: xs := by
      match hxs : (upList coefs s.upL (read n p.inL m)).2.map (· * g) with
      | [] =>
        have := ll s.upL p.inL
        rw [hxs] at this
        simp at this
        omega
      | x :: xs => exact ⟨x, xs, rfl⟩
    have hy : ∃ y, ((upList coefs s.upR (read n p.inR m)).2.map (· * g))[1]? = some y := by
      refine ⟨((upList coefs s.upR (read n p.inR m)).2.map (· * g))[1]'(by rw [ll]; omega), List.getElem?_eq_getElem _⟩
    obtain ⟨x, xs, hx⟩ := hx
    obtain ⟨y, hy⟩ := hy
    have hy' : ((upList coefs s.upR (read n p.inR m)).2.map (· * g)).getD 1 0 = y := by
      rw [List.getD_eq_getElem?_getD, hy]
      rfl
    simp only [gains, if_true, hy, Kind.block, frames_fst, frames_snd, hy']
    rw [hx]
    simp only [writeFrames]
    rw [← hx]
    have hl : ∀ (mem : List (Stage K)) (l : List K), l.length = 2 * n →
        (downList coefs mem (l.zipWith (· * ·) (mapAccum core s.coreL
          (((upList coefs s.upL (read n p.inL m)).2.map (· * g)).map fun x => |x| + |y|)).2)).2.length = n := by
      intro mem l hl
      apply downList_length
      rw [List.length_zipWith, mapAccum_length, List.length_map, ll, hl]
      simp
    rw [List.map_fst_zip (by rw [hl _ _ (ll _ _), hl _ _ (ll _ _)]), List.map_snd_zip (by rw [hl _ _ (ll _ _), hl _ _ (ll _ _)])]
  | false =>
    simp only [gains, Kind.block, frames_fst, frames_snd, dynChannel, writeFrames, Bool.false_eq_true, if_false]
    have hl : ∀ (mem mem' : List (Stage K)) (b : Nat) (c : σ),
        (downList coefs mem (((upList coefs mem' (read n b m)).2.map (· * g)).zipWith (· * ·)
          (mapAccum core c ((upList coefs mem' (read n b m)).2.map (· * g))).2)).2.length = n := by
      intro mem mem' b c
      apply downList_length
      rw [List.length_zipWith, mapAccum_length, ll]
      simp
    rw [List.map_fst_zip (by rw [hl, hl]), List.map_snd_zip (by rw [hl, hl])]

theorem does_limiter (cap : Nat) (coefs : List K) (k1 k3 k5 : K) (n : Nat) (p : Ports) (h1 : 1 ≤ n) (hn : n ≤ cap) :
    Does (Kind.effect cap (.limiter coefs k1 k3 k5)) (Kind.block cap (.limiter coefs k1 k3 k5)) n p := by
  intro (s : Dyn K (LimitCore K)) m
  have hb : blockFrames n = n := by simp [blockFrames, h1]
  simp only [Kind.effect, limiterProcess, hb, if_pos hn]
  have tl : ∀ (mem : List (Stage K)) (b : Nat), (upList coefs mem (read n b m)).2.take (2 * n) = (upList coefs mem (read n b m)).2 := by
    intro mem b
    apply List.take_of_length_le
    rw [upList_length, read_length]
  have dl : ∀ (mem : List (Stage K)) (b : Nat), (upList coefs mem (read n b m)).2.drop (2 * n) = [] := by
    intro mem b
    apply List.drop_of_length_le
    rw [upList_length, read_length]
  simp only [tl, dl, List.append_nil, Kind.block, frames_fst, frames_snd, limitChannel, writeFrames]
  have hl : ∀ (mem mem' : List (Stage K)) (b : Nat) (c : LimitCore K),
      (downList coefs mem (mapAccum (limitStep k1 k3 k5) c (upList coefs mem' (read n b m)).2).2).2.length = n := by
    intro mem mem' b c
    apply downList_length
    rw [mapAccum_length, upList_length, read_length]
  rw [List.map_fst_zip (by rw [hl, hl]), List.map_snd_zip (by rw [hl, hl])]

/-- An effect whose input is not its output. -/
theorem does_apart (cap : Nat) (k : Kind K) (n : Nat) (p : Ports) (h1 : 1 ≤ n) (hn : n ≤ cap) (h : p.apart) :
    Does (k.effect cap) (k.block cap) n p := by
  have h' := h
  obtain ⟨ho, _, _, _, hx, _⟩ := h
  cases k with
  | gain lin => exact does_gain cap lin n p hn hx
  | width c1 c2 => exact does_width cap c1 c2 n p hn ho
  | apan a => exact does_apan cap a n p hn ho
  | strings σ half wet res => exact does_strings cap half wet res n p hn ho hx
  | rectify coefs amount => exact does_rectify cap coefs amount n p hn hx
  | lofi coefs f => exact does_lofi cap coefs f n p hx
  | dyn σ coefs core g linked => exact does_dyn cap coefs core g linked n p h1 hn
  | limiter coefs k1 k3 k5 => exact does_limiter cap coefs k1 k3 k5 n p h1 hn
  | disto σ d => exact does_disto_apart cap d n p hn h'

/-- The distortion. -/
def Kind.isDisto : Kind K → Bool
  | .disto _ _ => true
  | _ => false

/-- An effect in place, other than the distortion. -/
theorem does_inPlace (cap : Nat) (k : Kind K) (hk : k.isDisto = false) (n : Nat) (p : Ports) (h1 : 1 ≤ n) (hn : n ≤ cap)
    (h : p.inPlace) : Does (k.effect cap) (k.block cap) n p := by
  obtain ⟨ho, hl, hr⟩ := h
  have hx : p.inR ≠ p.outL := by
    rw [hr]
    exact Ne.symm ho
  cases k with
  | gain lin => exact does_gain cap lin n p hn hx
  | width c1 c2 => exact does_width cap c1 c2 n p hn ho
  | apan a => exact does_apan cap a n p hn ho
  | strings σ half wet res => exact does_strings cap half wet res n p hn ho hx
  | rectify coefs amount => exact does_rectify cap coefs amount n p hn hx
  | lofi coefs f => exact does_lofi cap coefs f n p hx
  | dyn σ coefs core g linked => exact does_dyn cap coefs core g linked n p h1 hn
  | limiter coefs k1 k3 k5 => exact does_limiter cap coefs k1 k3 k5 n p h1 hn
  | disto σ d => simp [Kind.isDisto] at hk

end Verif.Effects
