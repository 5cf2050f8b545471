import Verif.Effects.Blocks
import Mathlib.Tactic.NormNum
import Mathlib.Tactic.Ring
import Mathlib.Tactic.Linarith
import Mathlib.Data.Rat.Floor

/-!
Properties of the effects: what a chain of effects does, and that the size of the blocks does not matter (C83, C84).
-/
namespace Verif.Effects

variable {K : Type} [Field K] [LinearOrder K] [FloorRing K]

/-! ### C83: the effects of a bus, one after the other -/

/-- A memory that holds the given frames in the buffers 0 and 1, silence elsewhere. -/
def load (xs : List (K × K)) : Mem K := writeFrames 0 1 xs fun _ _ => 0

/-- What an effect makes of a signal by itself: it is given the signal in a buffer and writes to another one. -/
def solo {cap : Nat} (k : Kind K) (s : (k.effect cap).State) (xs : List (K × K)) :
    Option ((k.effect cap).State × List (K × K)) :=
  ((k.effect cap).process xs.length ⟨0, 1, 2, 3⟩ s (load xs)).map fun a => (a.1, frames xs.length 2 3 a.2)

/-- Specification of a bus: each effect is given what the one before it made. -/
def inTurn {cap : Nat} : List (Running (K := K) cap) → List (K × K) → Option (List (Running (K := K) cap) × List (K × K))
  | [], xs => some ([], xs)
  | r :: rs, xs =>
    match solo r.kind r.state xs with
    | none => none
    | some a => (inTurn rs a.2).map fun b => (⟨r.kind, a.1⟩ :: b.1, b.2)

theorem frames_writeFrames {n a b : Nat} (h : a ≠ b) {xs : List (K × K)} (hn : xs.length = n) (m : Mem K) :
    frames n a b (writeFrames a b xs m) = xs := by
  rw [frames, writeFrames, read_write_same (by simp [hn]), read_write_other h, read_write_same (by simp [hn])]
  clear hn
  induction xs with
  | nil => rfl
  | cons x xs ih => simpa using ih

theorem does_frames {e : Effect K} {f : e.State → List (K × K) → e.State × List (K × K)} {n : Nat} {p : Ports}
    (hf : ∀ s xs, (f s xs).2.length = xs.length) (hp : p.outL ≠ p.outR) (h : Does e f n p) (s : e.State) (m : Mem K) :
    ∃ m', e.process n p s m = some ((f s (frames n p.inL p.inR m)).1, m') ∧
      frames n p.outL p.outR m' = (f s (frames n p.inL p.inR m)).2 :=
  ⟨_, h s m, frames_writeFrames hp (by rw [hf, frames_length]) m⟩

theorem solo_eq {cap : Nat} (k : Kind K) (s : (k.effect cap).State) (xs : List (K × K)) (h1 : 1 ≤ xs.length)
    (hn : xs.length ≤ cap) : solo k s xs = some (k.block cap s xs) := by
  have hap : (⟨0, 1, 2, 3⟩ : Ports).apart := by
    refine ⟨?_, ?_, ?_, ?_, ?_, ?_⟩ <;> simp
  obtain ⟨m', e1, e2⟩ := does_frames (block_length cap k) (by simp) (does_apart cap k xs.length ⟨0, 1, 2, 3⟩ h1 hn hap) s (load xs)
  have hx : frames xs.length 0 1 (load xs) = xs := frames_writeFrames (by simp) rfl _
  simp only [hx] at e1 e2
  simp only [solo, e1, Option.map_some, e2]

theorem rest_in_turn {cap : Nat} (n : Nat) (h1 : 1 ≤ n) (hn : n ≤ cap) (rs : List (Running (K := K) cap))
    (hk : ∀ r ∈ rs, r.kind.isDisto = false) (m : Mem K) :
    (restProcess n rs m).map (fun a => (a.1, frames n 2 3 a.2)) = inTurn rs (frames n 2 3 m) := by
  induction rs generalizing m with
  | nil => simp [restProcess, inTurn]
  | cons r rs ih =>
    obtain ⟨m', e1, e2⟩ := does_frames (block_length cap r.kind) (by simp)
      (does_inPlace cap r.kind (hk r (by simp)) n ⟨2, 3, 2, 3⟩ h1 hn (by refine ⟨?_, ?_, ?_⟩ <;> simp)) r.state m
    have hs := solo_eq r.kind r.state (frames n 2 3 m) (by rw [frames_length]; exact h1) (by rw [frames_length]; exact hn)
    simp only [restProcess, inTurn, e1, hs]
    rw [← e2, ← ih (fun r' hr' => hk r' (by simp [hr'])) m']
    simp [Function.comp_def]

/-- C83 (partial): whatever the effects of a bus and their states, whatever was left in the buffers, a block of the bus is what
its effects make of the signal one after the other, each as it would by itself. Missing: the distortion as second effect or
further; it is wrong there, see `chained_disto_violated`. -/
theorem chain_in_turn_partial {cap : Nat} (n : Nat) (h1 : 1 ≤ n) (hn : n ≤ cap) (rs : List (Running (K := K) cap))
    (hk : ∀ r ∈ rs.tail, r.kind.isDisto = false) (m : Mem K) :
    (busProcess n rs m).map (fun a => (a.1, frames n 2 3 a.2)) = inTurn rs (frames n 0 1 m) := by
  cases rs with
  | nil =>
    have e : frames n 2 3 (copyUnlessSame 1 3 n (copyUnlessSame 0 2 n m)) = frames n 0 1 m := by
      rw [copyUnlessSame_eq, copyUnlessSame_eq, frames, frames]
      rw [read_write_same (read_length _ _ _), read_write_other (show (2 : Nat) ≠ 3 by simp),
        read_write_same (read_length _ _ _), read_write_other (show (1 : Nat) ≠ 2 by simp)]
    simp [busProcess, inTurn, e]
  | cons r rs =>
    have hap : (⟨0, 1, 2, 3⟩ : Ports).apart := by
      refine ⟨?_, ?_, ?_, ?_, ?_, ?_⟩ <;> simp
    obtain ⟨m', e1, e2⟩ := does_frames (block_length cap r.kind) (by simp)
      (does_apart cap r.kind n ⟨0, 1, 2, 3⟩ h1 hn hap) r.state m
    have hs := solo_eq r.kind r.state (frames n 0 1 m) (by rw [frames_length]; exact h1) (by rw [frames_length]; exact hn)
    simp only [busProcess, inTurn, e1, hs]
    rw [← e2, ← rest_in_turn n h1 hn rs hk m']
    simp [Function.comp_def]

/-- A distortion without resampling filters or stages, that lets a fourth through the wet side. -/
def plainDisto : DistoParams ℚ Unit where
  dry := 1 / 4
  wet := 1 / 2
  pole := 0
  c2 := []
  c4 := []
  c8 := []
  drive := fun _ x => ((), x)

def plainState : Disto ℚ Unit := ⟨0, (), ([], [], []), ([], [], [])⟩

/-- A bus with a gain of 1 and a distortion. -/
def gainThenDisto : List (Running (K := ℚ) 4) :=
  [⟨.gain 1, ((), ())⟩, ⟨.disto Unit plainDisto, (plainState, plainState)⟩]

/-- C83 is violated: a gain of 1 before the distortion changes its sound. By itself it makes 5/8 of a sample at 1, half of which
is the dry signal; after another effect the dry signal is replaced by the wet one, and it makes 1/4. -/
theorem chained_disto_violated :
    ((busProcess 1 gainThenDisto (load [(1, 1)])).map fun a => frames 1 2 3 a.2) = some [(1 / 4, 1 / 4)] ∧
    (inTurn gainThenDisto [(1, 1)]).map (fun a => a.2) = some [(5 / 8, 5 / 8)] := by
  refine ⟨?_, ?_⟩ <;> decide +kernel

/-- An auto-pan, then a distortion first and a gain after. -/
example : (inTurn [⟨.disto Unit plainDisto, (plainState, plainState)⟩, ⟨.gain (2 : ℚ), ((), ())⟩] [((1 : ℚ), (0 : ℚ)), (0, 1)] :
    Option (List (Running (K := ℚ) 4) × List (ℚ × ℚ))).map (fun a => a.2) = some [(5 / 4, 0), (0, 5 / 4)] := by
  decide +kernel

/-! ### C84: the size of the blocks does not matter -/

/-- A computation on blocks that gives the same whatever the blocks a signal is cut into. -/
def Appends {σ α : Type} (f : σ → List α → σ × List α) : Prop :=
  ∀ s xs ys, f s (xs ++ ys) = ((f (f s xs).1 ys).1, (f s xs).2 ++ (f (f s xs).1 ys).2)

theorem appends_mapAccum {σ α : Type} (step : σ → α → σ × α) : Appends (mapAccum step) :=
  fun s xs ys => mapAccum_append step s xs ys

theorem appends_two {σ : Type} {f : σ → List K → σ × List K} (h : Appends f) (hl : ∀ s xs, (f s xs).2.length = xs.length) :
    Appends (twoChannels f) := by
  intro s xs ys
  simp only [twoChannels, List.map_append, h _ _ _]
  rw [List.zip_append (by simp [hl])]

theorem appends_lofi (coefs : List K) (f : Lofi K) : Appends (lofiChannel coefs f) := by
  have hb : Appends (bitChannel coefs f) := by
    intro s xs ys
    unfold bitChannel
    split
    · rfl
    · exact mapAccum_append _ _ _ _
  have hd : Appends (decimChannel coefs f) := by
    intro s xs ys
    unfold decimChannel
    split
    · rfl
    · exact mapAccum_append _ _ _ _
  intro s xs ys
  simp only [lofiChannel, hb _ _ _, hd _ _ _]

theorem appends_dyn {σ : Type} (coefs : List K) (core : σ → K → σ × K) (g : K) : Appends (dynChannel coefs core g) := by
  intro s xs ys
  simp only [dynChannel, upList_append, List.map_append, mapAccum_append]
  rw [List.zipWith_append (by simp [mapAccum_length]), downList_append coefs xs.length _ _ _ (by simp [mapAccum_length, upList_length])]

theorem appends_limit (coefs : List K) (k1 k3 k5 : K) : Appends (limitChannel coefs k1 k3 k5) := by
  intro s xs ys
  simp only [limitChannel, upList_append, mapAccum_append]
  rw [downList_append coefs xs.length _ _ _ (by simp [mapAccum_length, upList_length])]

theorem down8_append {σ : Type} (d : DistoParams K σ) (s : List (Stage K) × List (Stage K) × List (Stage K)) (xs ys : List K)
    (k : Nat) (h : xs.length = 8 * k) :
    down8 d s (xs ++ ys) = ((down8 d (down8 d s xs).1 ys).1, (down8 d s xs).2 ++ (down8 d (down8 d s xs).1 ys).2) := by
  have h1 : (downList d.c8 s.2.2 xs).2.length = 4 * k := downList_length _ _ _ _ (by omega)
  have h2 : (downList d.c4 s.2.1 (downList d.c8 s.2.2 xs).2).2.length = 2 * k := downList_length _ _ _ _ (by omega)
  simp only [down8]
  rw [downList_append d.c8 (4 * k) _ _ _ (by omega)]
  simp only
  rw [downList_append d.c4 (2 * k) _ _ _ (by omega)]
  simp only
  rw [downList_append d.c2 k _ _ _ (by omega)]

theorem appends_disto {σ : Type} (d : DistoParams K σ) : Appends (distoList d) := by
  intro s xs ys
  have hup : ∀ t (us vs : List K), up8 d t (us ++ vs) =
      ((up8 d (up8 d t us).1 vs).1, (up8 d t us).2 ++ (up8 d (up8 d t us).1 vs).2) := by
    intro t us vs
    simp only [up8, upList_append]
  simp only [distoList, mapAccum_append, hup]
  rw [down8_append d _ _ _ xs.length (by rw [mapAccum_length, up8_length, mapAccum_length])]
  simp only
  rw [List.zipWith_append (wet_length d s xs)]

/-- A compressor or a gate with linked channels. -/
def Kind.isLinked : Kind K → Bool
  | .dyn _ _ _ _ linked => linked
  | _ => false

theorem block_append (cap : Nat) (k : Kind K) (hk : k.isLinked = false) : Appends (k.block cap) := by
  cases k with
  | gain lin => exact appends_two (appends_mapAccum _) (mapAccum_length _)
  | width c1 c2 => exact appends_mapAccum _
  | apan a => exact appends_mapAccum _
  | strings σ half wet res => exact appends_mapAccum _
  | rectify coefs amount => exact appends_two (appends_mapAccum _) (mapAccum_length _)
  | lofi coefs f => exact appends_two (appends_lofi coefs f) (lofiChannel_length coefs f)
  | dyn σ coefs core g linked =>
    have : linked = false := hk
    subst this
    intro s xs ys
    simp only [Kind.block, Bool.false_eq_true, if_false, List.map_append, appends_dyn coefs core g _ _ _]
    rw [List.zip_append (by simp [dynChannel_length])]
  | limiter coefs k1 k3 k5 =>
    intro s xs ys
    simp only [Kind.block, List.map_append, appends_limit coefs k1 k3 k5 _ _ _]
    rw [List.zip_append (by simp [limitChannel_length])]
  | disto σ d => exact appends_two (appends_disto d) (distoList_length d)

/-- A bus that is given a signal block by block: what it plays, all blocks together. The buffers keep what earlier blocks left. -/
def busRun {cap : Nat} : List (Running (K := K) cap) → Mem K → List (List (K × K)) →
    Option (List (Running (K := K) cap) × List (K × K))
  | rs, _, [] => some (rs, [])
  | rs, m, xs :: blocks =>
    match busProcess xs.length rs (writeFrames 0 1 xs m) with
    | none => none
    | some a => (busRun a.1 a.2 blocks).map fun b => (b.1, frames xs.length 2 3 a.2 ++ b.2)

/-- The effects in turn, as functions of the frames. -/
def turns {cap : Nat} : List (Running (K := K) cap) → List (K × K) → List (Running (K := K) cap) × List (K × K)
  | [], xs => ([], xs)
  | r :: rs, xs =>
    let a := r.kind.block cap r.state xs
    let b := turns rs a.2
    (⟨r.kind, a.1⟩ :: b.1, b.2)

theorem turns_length {cap : Nat} (rs : List (Running (K := K) cap)) (xs : List (K × K)) :
    (turns rs xs).2.length = xs.length := by
  induction rs generalizing xs with
  | nil => rfl
  | cons r rs ih => simp only [turns, ih, block_length]

theorem inTurn_eq {cap : Nat} (rs : List (Running (K := K) cap)) (xs : List (K × K)) (h1 : 1 ≤ xs.length)
    (hn : xs.length ≤ cap) : inTurn rs xs = some (turns rs xs) := by
  induction rs generalizing xs with
  | nil => rfl
  | cons r rs ih =>
    have hl := block_length cap r.kind r.state xs
    simp only [inTurn, turns, solo_eq r.kind r.state xs h1 hn]
    rw [ih _ (by omega) (by omega)]
    rfl

/-- The same effects, in other states. -/
theorem turns_kinds {cap : Nat} (rs : List (Running (K := K) cap)) (xs : List (K × K)) :
    (turns rs xs).1.map (fun r => r.kind) = rs.map (fun r => r.kind) := by
  induction rs generalizing xs with
  | nil => rfl
  | cons r rs ih => simp [turns, ih]

theorem turns_append {cap : Nat} (rs : List (Running (K := K) cap)) (hk : ∀ r ∈ rs, r.kind.isLinked = false)
    (xs ys : List (K × K)) :
    turns rs (xs ++ ys) = ((turns (turns rs xs).1 ys).1, (turns rs xs).2 ++ (turns (turns rs xs).1 ys).2) := by
  induction rs generalizing xs ys with
  | nil => rfl
  | cons r rs ih =>
    simp only [turns, block_append cap r.kind (hk r (by simp)) r.state xs ys]
    rw [ih (fun r' hr' => hk r' (by simp [hr']))]

theorem all_of_kinds {cap : Nat} {P : Kind K → Prop} {rs rs' : List (Running (K := K) cap)}
    (h : rs'.map (fun r => r.kind) = rs.map (fun r => r.kind)) (hp : ∀ r ∈ rs, P r.kind) : ∀ r ∈ rs', P r.kind := by
  intro r hr
  have : r.kind ∈ rs.map (fun r => r.kind) := by
    rw [← h]
    exact List.mem_map.mpr ⟨r, hr, rfl⟩
  obtain ⟨r0, h0, e⟩ := List.mem_map.mp this
  exact e ▸ hp r0 h0

theorem busRun_eq {cap : Nat} (rs : List (Running (K := K) cap)) (hd : ∀ r ∈ rs.tail, r.kind.isDisto = false)
    (hk : ∀ r ∈ rs, r.kind.isLinked = false) (m : Mem K) (blocks : List (List (K × K)))
    (hb : ∀ xs ∈ blocks, 1 ≤ xs.length ∧ xs.length ≤ cap) :
    (busRun rs m blocks).map (fun a => a.2) = some (turns rs blocks.flatten).2 := by
  induction blocks generalizing rs m with
  | nil =>
    have : (turns rs ([] : List (K × K))).2 = [] := List.length_eq_zero_iff.mp (by rw [turns_length]; rfl)
    simp [busRun, this]
  | cons xs blocks ih =>
    obtain ⟨h1, hn⟩ := hb xs (by simp)
    have e := chain_in_turn_partial xs.length h1 hn rs hd (writeFrames 0 1 xs m)
    rw [frames_writeFrames (by simp) rfl, inTurn_eq rs xs h1 hn] at e
    obtain ⟨a, ha, hae⟩ := Option.map_eq_some_iff.mp e
    have ha1 : a.1 = (turns rs xs).1 := congrArg Prod.fst hae
    have ha2 : frames xs.length 2 3 a.2 = (turns rs xs).2 := congrArg Prod.snd hae
    have hkinds : a.1.map (fun r => r.kind) = rs.map (fun r => r.kind) := by rw [ha1, turns_kinds]
    have htail : a.1.tail.map (fun r => r.kind) = rs.tail.map (fun r => r.kind) := by
      rw [List.map_tail, hkinds, List.map_tail]
    have ih' := ih a.1 (all_of_kinds (P := fun k => k.isDisto = false) htail hd)
      (all_of_kinds (P := fun k => k.isLinked = false) hkinds hk) a.2 (fun ys hys => hb ys (by simp [hys]))
    simp only [busRun, ha, List.flatten_cons]
    rw [turns_append rs hk, ← ha1]
    obtain ⟨b, hbe, hb2⟩ := Option.map_eq_some_iff.mp ih'
    rw [hbe]
    simp only [Option.map_some, ha2]
    rw [hb2]

/-- C84 (partial): for every bus and every signal, whatever the blocks it is cut into, the bus plays the same. Missing: linked
compressors and gates, for which it is false (`linked_cut_violated`). -/
theorem cuts_agree_partial {cap : Nat} (rs : List (Running (K := K) cap)) (hd : ∀ r ∈ rs.tail, r.kind.isDisto = false)
    (hk : ∀ r ∈ rs, r.kind.isLinked = false) (m m' : Mem K) (blocks blocks' : List (List (K × K)))
    (hb : ∀ xs ∈ blocks, 1 ≤ xs.length ∧ xs.length ≤ cap) (hb' : ∀ xs ∈ blocks', 1 ≤ xs.length ∧ xs.length ≤ cap)
    (h : blocks.flatten = blocks'.flatten) :
    (busRun rs m blocks).map (fun a => a.2) = (busRun rs m' blocks').map (fun a => a.2) ∧
      (busRun rs m blocks).isSome = true := by
  have e := busRun_eq rs hd hk m blocks hb
  refine ⟨by rw [e, busRun_eq rs hd hk m' blocks' hb', h], ?_⟩
  obtain ⟨a, ha, _⟩ := Option.map_eq_some_iff.mp e
  rw [ha]
  rfl

/-- A detector that is open while the level is above 1/2, as the gate with no attack, hold and release. -/
def openGate (s : Unit) (x : ℚ) : Unit × ℚ := (s, if |x| > 1 / 2 then 1 else 0)

/-- A linked gate, with the resampling filters of the code. -/
def linkedGate : Running (K := ℚ) 4 :=
  ⟨.dyn Unit coeffs2x openGate 1 true,
    ⟨(), (), silentStages coeffs2x, silentStages coeffs2x, silentStages coeffs2x, silentStages coeffs2x⟩⟩

/-- The same gate with channels of their own. -/
def freeGate : Running (K := ℚ) 4 :=
  ⟨.dyn Unit coeffs2x openGate 1 false,
    ⟨(), (), silentStages coeffs2x, silentStages coeffs2x, silentStages coeffs2x, silentStages coeffs2x⟩⟩

/-- C84 is violated by a linked gate: two frames played at once or one by one come out differently. -/
theorem linked_cut_violated :
    (busRun [linkedGate] (fun _ _ => 0) [[(0, 0), (0, 60)]]).map (fun a => a.2) ≠
      (busRun [linkedGate] (fun _ _ => 0) [[(0, 0)], [(0, 60)]]).map (fun a => a.2) := by
  decide +kernel

/-- The gate with channels of its own on the same signal. -/
example : (busRun [freeGate] (fun _ _ => 0) [[(0, 0), (0, 60)]]).map (fun a => a.2) =
      (busRun [freeGate] (fun _ _ => 0) [[(0, 0)], [(0, 60)]]).map (fun a => a.2) ∧
    (busRun [freeGate] (fun _ _ => 0) [[(0, 0), (0, 60)]]).map (fun a => a.2) ≠ some [(0, 0), (0, 0)] := by
  refine ⟨(cuts_agree_partial [freeGate] (by simp) (by simp [freeGate, Kind.isLinked]) (fun _ _ => 0) (fun _ _ => 0)
    [[((0 : ℚ), (0 : ℚ)), (0, 60)]] [[(0, 0)], [(0, 60)]] (by simp) (by simp) (by simp)).1, ?_⟩
  decide +kernel

end Verif.Effects
