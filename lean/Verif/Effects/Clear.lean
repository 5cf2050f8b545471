import Verif.Effects.Props

/-!
Properties of the effects: all sound off (C87).
-/
namespace Verif.Effects

variable {K : Type} [Field K] [LinearOrder K] [FloorRing K]

/-! ### C87: after all sound off, silence stays silence -/

/-- `clear` of each effect: nothing for Gain and Width (Gain.cpp:35-37, Width.cpp:35-37), the phase of Apan (Apan.cpp:44-47), the
resonators (Strings.cpp:94-97), the resamplers and held values (Rectify.cpp:42-48, Lofi.cpp:61-67, 107-111, 158-163), the
detectors alone (Compressor.cpp:77-82, Gate.cpp:80-85, Limiter.cpp:52-55), everything (Disto.cpp:98-111). `cleared` are the
states of the detectors, resonators and stages once cleared. -/
def Kind.clear (cap : Nat) : (k : Kind K) → (cleared : (match k with
      | .strings σ .. => σ
      | .dyn σ .. => σ
      | .disto σ _ => σ
      | _ => Unit)) → (k.effect cap).State → (k.effect cap).State
  | .gain _, _ => id
  | .width _ _, _ => id
  | .apan _, _ => fun _ => (0 : K)
  | .strings _ _ _ _, c => fun _ => c
  | .rectify coefs _, _ => fun _ => ((silentStages coefs, silentStages coefs), (silentStages coefs, silentStages coefs))
  | .lofi coefs _, _ => fun _ =>
      ((⟨0, silentStages coefs⟩, ⟨0, 0, silentStages coefs⟩), (⟨0, silentStages coefs⟩, ⟨0, 0, silentStages coefs⟩))
  | .dyn _ _ _ _ _, c => fun s => Dyn.clear c s
  | .limiter _ _ _ _, _ => fun s => Dyn.clear ⟨0, 0, 0⟩ s
  | .disto _ d, c => fun _ =>
      (⟨0, c, (silentStages d.c2, silentStages d.c4, silentStages d.c8), (silentStages d.c2, silentStages d.c4, silentStages d.c8)⟩,
       ⟨0, c, (silentStages d.c2, silentStages d.c4, silentStages d.c8), (silentStages d.c2, silentStages d.c4, silentStages d.c8)⟩)

/-- A cleared state: resonators or stages that stay silent when fed with silence; not an effect whose `clear` forgets the
resamplers. -/
def Cleared (cap : Nat) : (k : Kind K) → (k.effect cap).State → Prop
  | .gain _, _ => True
  | .width _ _, _ => True
  | .apan _, _ => True
  | .strings _ _ _ res, s => res s 0 = (s, 0)
  | .rectify coefs _, s => s = ((silentStages coefs, silentStages coefs), (silentStages coefs, silentStages coefs))
  | .lofi coefs f, s => 0 ≤ f.dt ∧
      s.1.1 = ⟨0, silentStages coefs⟩ ∧ s.1.2.last = 0 ∧ s.1.2.down = silentStages coefs ∧
      s.2.1 = ⟨0, silentStages coefs⟩ ∧ s.2.2.last = 0 ∧ s.2.2.down = silentStages coefs
  | .dyn _ _ _ _ _, _ => False
  | .limiter _ _ _ _, _ => False
  | .disto _ d, s => ∃ c, d.drive c 0 = (c, 0) ∧ s =
      (⟨0, c, (silentStages d.c2, silentStages d.c4, silentStages d.c8), (silentStages d.c2, silentStages d.c4, silentStages d.c8)⟩,
       ⟨0, c, (silentStages d.c2, silentStages d.c4, silentStages d.c8), (silentStages d.c2, silentStages d.c4, silentStages d.c8)⟩)

theorem stages_silent (coefs : List K) : stages coefs (silentStages coefs) 0 0 = (silentStages coefs, 0, 0) := by
  have h : ∀ (n : Nat) (coefs : List K), coefs.length ≤ n → stages coefs (silentStages coefs) 0 0 = (silentStages coefs, 0, 0) := by
    intro n
    induction n with
    | zero =>
      intro coefs h
      have : coefs = [] := List.length_eq_zero_iff.mp (by omega)
      subst this
      rfl
    | succ n ih =>
      intro coefs h
      match coefs, h with
      | [], _ => rfl
      | [c], _ => simp [stages, silentStages]
      | c0 :: c1 :: cs, h =>
        have := ih cs (by simp at h; omega)
        have e : silentStages (c0 :: c1 :: cs) = (0, 0) :: (0, 0) :: silentStages cs := rfl
        rw [e, stages]
        simp [this]
  exact h _ coefs le_rfl

theorem upSample_silent (coefs : List K) : upSample coefs (silentStages coefs) 0 = (silentStages coefs, 0, 0) :=
  stages_silent coefs

theorem downSample_silent (coefs : List K) : downSample coefs (silentStages coefs) 0 0 = (silentStages coefs, 0) := by
  simp [downSample, stages_silent]

theorem upList_silent (coefs : List K) (n : Nat) :
    upList coefs (silentStages coefs) (List.replicate n 0) = (silentStages coefs, List.replicate (2 * n) 0) := by
  induction n with
  | zero => rfl
  | succ n ih =>
    rw [List.replicate_succ, upList, upSample_silent, ih]
    rfl

theorem downList_silent (coefs : List K) (n : Nat) :
    downList coefs (silentStages coefs) (List.replicate (2 * n) 0) = (silentStages coefs, List.replicate n 0) := by
  induction n with
  | zero => rfl
  | succ n ih =>
    have e : List.replicate (2 * (n + 1)) (0 : K) = 0 :: 0 :: List.replicate (2 * n) 0 := by
      rw [show 2 * (n + 1) = (2 * n + 1) + 1 by omega, List.replicate_succ, List.replicate_succ]
    rw [e, downList, downSample_silent, ih]
    rfl

theorem mapAccum_fixed {σ α β : Type} (step : σ → α → σ × β) (s : σ) (x : α) (y : β) (h : step s x = (s, y)) (n : Nat) :
    mapAccum step s (List.replicate n x) = (s, List.replicate n y) := by
  induction n with
  | zero => rfl
  | succ n ih => rw [List.replicate_succ, mapAccum, h, ih]; rfl

/-- A computation that stays in some set of states and answers `x` by `y` there. -/
theorem mapAccum_inv {σ α β : Type} (step : σ → α → σ × β) (P : σ → Prop) (x : α) (y : β)
    (h : ∀ s, P s → P (step s x).1 ∧ (step s x).2 = y) (n : Nat) (s : σ) (hs : P s) :
    (mapAccum step s (List.replicate n x)).2 = List.replicate n y := by
  induction n generalizing s with
  | zero => rfl
  | succ n ih =>
    rw [List.replicate_succ, mapAccum]
    simp only
    rw [ih _ (h s hs).1, (h s hs).2]
    rfl

theorem rectify_silent [IsStrictOrderedRing K] (coefs : List K) (amount : K) :
    rectifyStep coefs amount (silentStages coefs, silentStages coefs) 0 = ((silentStages coefs, silentStages coefs), 0) := by
  simp only [rectifyStep, upSample_silent, abs_zero, mul_zero, add_zero, downSample_silent]

theorem held_silent (coefs : List K) : held coefs (silentStages coefs) 0 0 = (silentStages coefs, 0) := by
  simp [held, downSample_silent]

theorem floor_half [IsStrictOrderedRing K] : ⌊(1 / 2 : K)⌋ = 0 := by
  rw [Int.floor_eq_iff]
  constructor
  · simp
  · have : (1 : K) / 2 < 1 := by norm_num
    simpa using this

theorem bit_silent [IsStrictOrderedRing K] (coefs : List K) (f : Lofi K) :
    f.bitStep coefs ⟨0, silentStages coefs⟩ 0 = (⟨0, silentStages coefs⟩, 0) := by
  have hq : f.quantize 0 = 0 := by
    simp only [Lofi.quantize, zero_mul, abs_zero, add_zero, floor_half]
    simp
  simp only [Lofi.bitStep, hq, held_silent]

theorem decim_silent (coefs : List K) (f : Lofi K) (n : Nat) (s : Decim K) (h1 : s.last = 0) (h2 : s.down = silentStages coefs) :
    (mapAccum (f.decimStep coefs) s (List.replicate n 0)).2 = List.replicate n 0 := by
  apply mapAccum_inv (f.decimStep coefs) (fun s => s.last = 0 ∧ s.down = silentStages coefs) 0 0 ?_ n s ⟨h1, h2⟩
  intro t ht
  simp [Lofi.decimStep, ht.1, ht.2, held_silent]

theorem lofi_silent [IsStrictOrderedRing K] (coefs : List K) (f : Lofi K) (n : Nat) (s : Bitred K × Decim K)
    (h0 : s.1 = ⟨0, silentStages coefs⟩) (h1 : s.2.last = 0) (h2 : s.2.down = silentStages coefs) :
    (lofiChannel coefs f s (List.replicate n 0)).2 = List.replicate n 0 := by
  have hb : (bitChannel coefs f s.1 (List.replicate n 0)).2 = List.replicate n 0 := by
    unfold bitChannel
    split
    · rfl
    · rw [h0, mapAccum_fixed _ _ _ _ (bit_silent coefs f)]
  simp only [lofiChannel, hb]
  unfold decimChannel
  split
  · rfl
  · exact decim_silent coefs f n s.2 h1 h2

theorem disto_silent {σ : Type} (d : DistoParams K σ) (c : σ) (h : d.drive c 0 = (c, 0)) (n : Nat) :
    (distoList d ⟨0, c, (silentStages d.c2, silentStages d.c4, silentStages d.c8),
      (silentStages d.c2, silentStages d.c4, silentStages d.c8)⟩ (List.replicate n 0)).2 = List.replicate n 0 := by
  have h1 : mapAccum (fun mem x => (x * d.dry * (1 - d.pole) + mem * d.pole, x * d.dry * (1 - d.pole) + mem * d.pole))
      (0 : K) (List.replicate n 0) = (0, List.replicate n 0) := mapAccum_fixed _ _ _ _ (by simp) n
  have h2 : (up8 d (silentStages d.c2, silentStages d.c4, silentStages d.c8) (List.replicate n 0)) =
      ((silentStages d.c2, silentStages d.c4, silentStages d.c8), List.replicate (2 * (2 * (2 * n))) 0) := by
    simp only [up8, upList_silent]
  have h3 : mapAccum d.drive c (List.replicate (2 * (2 * (2 * n))) 0) = (c, List.replicate (2 * (2 * (2 * n))) 0) :=
    mapAccum_fixed _ _ _ _ h _
  have h4 : down8 d (silentStages d.c2, silentStages d.c4, silentStages d.c8) (List.replicate (2 * (2 * (2 * n))) 0) =
      ((silentStages d.c2, silentStages d.c4, silentStages d.c8), List.replicate n 0) := by
    simp only [down8, downList_silent]
  simp only [distoList, h1, h2, h3, h4]
  rw [List.zipWith_replicate]
  simp

theorem two_silent {σ : Type} (f : σ → List K → σ × List K) (s : σ × σ) (n : Nat)
    (h1 : (f s.1 (List.replicate n 0)).2 = List.replicate n 0) (h2 : (f s.2 (List.replicate n 0)).2 = List.replicate n 0) :
    (twoChannels f s (List.replicate n (0, 0))).2 = List.replicate n (0, 0) := by
  simp only [twoChannels, List.map_replicate, h1, h2]
  simp [List.zip_replicate]

theorem block_silent [IsStrictOrderedRing K] (cap : Nat) (k : Kind K) (s : (k.effect cap).State) (h : Cleared cap k s) (n : Nat) :
    (k.block cap s (List.replicate n (0, 0))).2 = List.replicate n (0, 0) := by
  cases k with
  | gain lin =>
    exact two_silent _ _ _ (mapAccum_inv _ (fun _ => True) 0 0 (by simp) n _ trivial)
      (mapAccum_inv _ (fun _ => True) 0 0 (by simp) n _ trivial)
  | width c1 c2 => exact mapAccum_inv _ (fun _ => True) (0, 0) (0, 0) (by simp) n _ trivial
  | apan a => exact mapAccum_inv _ (fun _ => True) (0, 0) (0, 0) (by simp [Apan.frame]) n _ trivial
  | strings σ half wet res =>
    have h' : res s 0 = (s, 0) := h
    have e : mapAccum (fun (s : σ) (f : K × K) => ((res s (half * f.1 + half * f.2)).1,
        (f.1 + wet * (res s (half * f.1 + half * f.2)).2, f.2 + wet * (res s (half * f.1 + half * f.2)).2))) s
        (List.replicate n (0, 0)) = (s, List.replicate n (0, 0)) := by
      apply mapAccum_fixed
      simp [h']
    exact congrArg Prod.snd e
  | rectify coefs amount =>
    have h' : s = ((silentStages coefs, silentStages coefs), (silentStages coefs, silentStages coefs)) := h
    subst h'
    apply two_silent <;> rw [mapAccum_fixed _ _ _ _ (rectify_silent coefs amount)]
  | lofi coefs f =>
    obtain ⟨_, a, b, c, a', b', c'⟩ := h
    exact two_silent _ _ _ (lofi_silent coefs f n _ a b c) (lofi_silent coefs f n _ a' b' c')
  | dyn σ coefs core g linked => exact h.elim
  | limiter coefs k1 k3 k5 => exact h.elim
  | disto σ d =>
    obtain ⟨c, hc, hs⟩ := h
    subst hs
    exact two_silent _ _ _ (disto_silent d c hc n) (disto_silent d c hc n)

/-- What `clear` leaves is a cleared state, whatever was there. -/
theorem clear_cleared (cap : Nat) (coefs : List K) (amount : K) (f : Lofi K) (hf : 0 ≤ f.dt) (a : Apan K) :
    (∀ s, Cleared cap (.apan a) (Kind.clear cap (.apan a) () s)) ∧
    (∀ s, Cleared cap (.rectify coefs amount) (Kind.clear cap (.rectify coefs amount) () s)) ∧
    (∀ s, Cleared cap (.lofi coefs f) (Kind.clear cap (.lofi coefs f) () s)) ∧
    (∀ (σ : Type) (half wet : K) (res : σ → K → σ × K) (c : σ), res c 0 = (c, 0) →
      ∀ s, Cleared cap (.strings σ half wet res) (Kind.clear cap (.strings σ half wet res) c s)) ∧
    (∀ (σ : Type) (d : DistoParams K σ) (c : σ), d.drive c 0 = (c, 0) →
      ∀ s, Cleared cap (.disto σ d) (Kind.clear cap (.disto σ d) c s)) := by
  refine ⟨fun _ => trivial, fun _ => rfl, fun _ => ⟨hf, rfl, rfl, rfl, rfl, rfl, rfl⟩, ?_, ?_⟩
  · intro σ half wet res c hc s
    exact hc
  · intro σ d c hc s
    exact ⟨c, hc, rfl⟩

/-- C87 (partial): once all the effects of a bus have been cleared, the bus plays silence for as long as no voice plays, whatever
its buffers held and whatever the blocks. Missing: the compressor, the gate and the limiter, which keep sounding
(`limiter_after_clear_violated`, `compressor_after_clear_violated`), and a distortion that is not the first effect. -/
theorem silent_after_clear_partial [IsStrictOrderedRing K] {cap : Nat} (rs : List (Running (K := K) cap))
    (hc : ∀ r ∈ rs, Cleared cap r.kind r.state) (hd : ∀ r ∈ rs.tail, r.kind.isDisto = false) (m : Mem K) (sizes : List Nat)
    (hs : ∀ n ∈ sizes, 1 ≤ n ∧ n ≤ cap) :
    (busRun rs m (sizes.map fun n => List.replicate n (0, 0))).map (fun a => a.2) = some (List.replicate sizes.sum (0, 0)) := by
  have hk : ∀ r ∈ rs, r.kind.isLinked = false := by
    intro r hr
    have h := hc r hr
    obtain ⟨k, s⟩ := r
    cases k with
    | dyn σ coefs core g linked => exact h.elim
    | _ => rfl
  rw [busRun_eq rs hd hk m _ (by
    intro xs hxs
    obtain ⟨n, hn, rfl⟩ := List.mem_map.mp hxs
    rw [List.length_replicate]
    exact hs n hn)]
  have hflat : (sizes.map fun n => List.replicate n ((0 : K), (0 : K))).flatten = List.replicate sizes.sum (0, 0) := by
    clear hs
    induction sizes with
    | nil => rfl
    | cons n l ih => rw [List.map_cons, List.flatten_cons, ih, List.sum_cons, List.replicate_append_replicate]
  rw [hflat]
  have ht : ∀ (rs : List (Running (K := K) cap)), (∀ r ∈ rs, Cleared cap r.kind r.state) → ∀ N : Nat,
      (turns rs (List.replicate N (0, 0))).2 = List.replicate N (0, 0) := by
    intro rs
    induction rs with
    | nil => intro _ N; rfl
    | cons r rs ih =>
      intro h N
      simp only [turns, block_silent cap r.kind r.state (h r (by simp)) N]
      exact ih (fun r' hr' => h r' (by simp [hr'])) N
  rw [ht rs hc]

/-- A rectifier after sound: cleared, it is silent, with the filters of the code. -/
example : ((busRun (cap := 4) [⟨.rectify coeffs2x (1 / 2), Kind.clear 4 (.rectify coeffs2x (1 / 2)) ()
      ((([] : List (Stage ℚ)), []), ([], []))⟩]
    (fun _ _ => 7) ([2, 1].map fun n => List.replicate n (0, 0))).map fun a => a.2) = some [(0, 0), (0, 0), (0, 0)] :=
  silent_after_clear_partial _ (by
    intro r hr
    simp only [List.mem_singleton] at hr
    subst hr
    exact rfl) (by simp) _ [2, 1] (by simp)

/-- A limiter as it is made, with the filters of the code. -/
def newLimiter : Dyn ℚ (LimitCore ℚ) :=
  ⟨⟨0, 0, 0⟩, ⟨0, 0, 0⟩, silentStages coeffs2x, silentStages coeffs2x, silentStages coeffs2x, silentStages coeffs2x⟩

/-- A frame of a limiter, `clear`, a frame of silence. -/
def limiterTwice (x : ℚ × ℚ) : Option (List (ℚ × ℚ)) :=
  match limiterProcess 4 coeffs2x (1 / 2) (1 / 2) (1 / 2) 1 ⟨0, 1, 2, 3⟩ newLimiter (load [x]) with
  | none => none
  | some a =>
    (limiterProcess 4 coeffs2x (1 / 2) (1 / 2) (1 / 2) 1 ⟨0, 1, 2, 3⟩ (Dyn.clear ⟨0, 0, 0⟩ a.1) (load [(0, 0)])).map fun b =>
      frames 1 2 3 b.2

/-- C87 is violated by the limiter: after a sample, `clear` and silence, the resamplers go on sounding. -/
theorem limiter_after_clear_violated : limiterTwice (1, 1) ≠ some [(0, 0)] ∧ limiterTwice (0, 0) = some [(0, 0)] := by
  refine ⟨?_, ?_⟩ <;> decide +kernel

/-- A frame of a compressor that lets everything through (`ratio` 1), `clear`, a frame of silence. -/
def compressorTwice (x : ℚ × ℚ) : Option (List (ℚ × ℚ)) :=
  match dynProcess 4 coeffs2x (fun (_ : Unit) (_ : ℚ) => ((), 1)) 1 false 1 ⟨0, 1, 2, 3⟩
      ⟨(), (), silentStages coeffs2x, silentStages coeffs2x, silentStages coeffs2x, silentStages coeffs2x⟩ (load [x]) with
  | none => none
  | some a =>
    (dynProcess 4 coeffs2x (fun (_ : Unit) (_ : ℚ) => ((), 1)) 1 false 1 ⟨0, 1, 2, 3⟩ (Dyn.clear () a.1) (load [(0, 0)])).map fun b =>
      frames 1 2 3 b.2

/-- C87 is violated by the compressor in the same way, and so by the gate. -/
theorem compressor_after_clear_violated :
    compressorTwice (1, 1) ≠ some [(0, 0)] ∧ compressorTwice (0, 0) = some [(0, 0)] := by
  refine ⟨?_, ?_⟩ <;> decide +kernel

end Verif.Effects
