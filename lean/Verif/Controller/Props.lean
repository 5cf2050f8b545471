import Verif.Controller.Model
import Verif.Envelope.Props
import Verif.Smoother.Props

/-!
C81: what a controller contributes as a modulation source, after every history of calls.
-/
namespace Verif.Controller
open Verif.Midi (Event EventVector)

/-! ## Specification -/

/-- The value that a voice has for the controllers that belong to voices, through a curve: the velocity of the note-on or
note-off that started it, its key, its gate, its random numbers, its alternation, and its distance to the previous key (the
last two do not go through the curve). -/
def voiceValue (curve : ℚ → ℚ) (v : Voice) : Nat → ℚ
  | 131 => curve (if v.type = .noteOn then v.value else 0)
  | 132 => curve (if v.type = .noteOff then v.value else 0)
  | 133 => curve ((v.number : ℚ) / 127)
  | 134 => curve v.noteGate
  | 135 => curve v.unipolar
  | 136 => curve v.bipolar
  | 137 => curve v.alternate
  | 140 => v.keydelta
  | 141 => |v.keydelta|
  | _ => 0

/-- `y` is `x` rounded towards 0 to a multiple of `step`. -/
def RoundsTo (step x y : ℚ) : Prop :=
  (∃ k : Int, y = k * step) ∧ |x - y| < step ∧ |y| ≤ |x| ∧ 0 ≤ x * y

/-- A controller that is neither per voice nor pitch bend nor a pressure. -/
def Ordinary (cc : Nat) : Prop := cc < 128 ∨ cc = 138 ∨ cc = 139 ∨ 141 < cc

/-- The buffers of a key in the order they were generated. -/
def buffersOf (k : Key) (out : List (Key × Option Nat × List ℚ)) : List (Option Nat × List ℚ) :=
  (out.filter (fun o => o.1 = k)).map (fun o => o.2)

/-- The calls that concern a key. -/
def concerns (k : Key) : Op → Bool
  | .init j _ => j = k
  | .generate j _ _ _ => j = k
  | _ => true

/-- A call that generates. -/
def isGenerate : Op → Bool
  | .generate _ _ _ _ => true
  | _ => false

/-- The blocks of a key before smoothing. -/
def blocks (k : Key) : List Op → List (List ℚ × Bool)
  | [] => []
  | .generate j v w n :: ops => if j = k then (raw w k v n).getD ([], false) :: blocks k ops else blocks k ops
  | _ :: ops => blocks k ops

/-! ## Histories -/

theorem smoothen_other (s : State) (j k : Key) (b : List ℚ × Bool) (h : k ≠ j) :
    (smoothen s j b).2.smoothers k = s.smoothers k := by
  unfold smoothen
  cases s.smoothers j with
  | none => rfl
  | some p => simp [h]

theorem smoothen_rate (s : State) (j : Key) (b : List ℚ × Bool) : (smoothen s j b).2.sampleRate = s.sampleRate := by
  unfold smoothen
  cases s.smoothers j <;> rfl

/-- Only keys with smoothing have a smoother. -/
def Clean (s : State) : Prop := ∀ k p, s.smoothers k = some p → 0 < k.smooth

theorem run_clean (ops : List Op) : ∀ (s : State) out t, Clean s → run s ops = some (out, t) → Clean t := by
  induction ops with
  | nil => intro s out t hs h; simp only [run, Option.some.injEq, Prod.mk.injEq] at h; exact h.2 ▸ hs
  | cons op ops ih =>
    intro s out t hs h
    cases op with
    | init k w =>
      refine ih _ _ _ ?_ h
      intro j p hj
      simp only [init] at hj
      by_cases hjk : j = k
      · subst hjk
        by_cases h0 : 0 < j.smooth
        · exact h0
        · simp [h0] at hj
      · simp only [hjk, if_false] at hj; exact hs j p hj
    | setSampleRate r =>
      refine ih _ _ _ ?_ h
      intro j p hj
      unfold setSampleRate at hj
      split at hj
      · exact hs j p hj
      · cases hp : s.smoothers j with
        | none => simp [hp] at hj
        | some q => exact hs j q hp
    | resetSmoothers w =>
      refine ih _ _ _ ?_ h
      intro j p hj
      simp only [resetSmoothers] at hj
      cases hp : s.smoothers j with
      | none => simp [hp] at hj
      | some q => exact hs j q hp
    | generate k v w n =>
      simp only [run] at h
      cases hg : generate s k v w n with
      | none => simp [hg] at h
      | some p =>
        obtain ⟨b, s'⟩ := p
        simp only [hg] at h
        cases hr : run s' ops with
        | none => simp [hr] at h
        | some r =>
          simp only [hr, Option.map_some, Option.some.injEq, Prod.mk.injEq] at h
          have := ih s' r.1 r.2 ?_ hr
          · exact h.2 ▸ this
          · simp only [generate, Option.map_eq_some_iff] at hg
            obtain ⟨c, _, hc⟩ := hg
            have hs' : s' = (smoothen s k c).2 := by rw [hc]
            intro j p hj
            by_cases hjk : j = k
            · subst hjk
              rw [hs'] at hj
              unfold smoothen at hj
              cases hp : s.smoothers j with
              | none => simp [hp] at hj
              | some q => exact hs j q hp
            · rw [hs', smoothen_other _ _ _ _ hjk] at hj
              exact hs j p hj

theorem fillValue_voice (w : World) (vc : Voice) (cc : Nat) (curve : ℚ → ℚ) (h : isPerVoice cc = true) :
    ∃ x c, fillValue w (some vc) cc = some (x, c) ∧ (if c then curve x else x) = voiceValue curve vc cc := by
  simp only [isPerVoice, List.mem_cons, List.not_mem_nil, or_false, decide_eq_true_eq] at h
  rcases h with rfl | rfl | rfl | rfl | rfl | rfl | rfl | rfl | rfl
  all_goals exact ⟨_, _, rfl, rfl⟩

theorem quantize_zero (x : ℚ) : quantize 0 x = x := by simp [quantize]

theorem trunc_mul (s x : ℚ) (hs : 0 < s) : RoundsTo s x (Envelope.trunc (x / s) * s) := by
  unfold Envelope.trunc
  have hx : x = x / s * s := by field_simp
  set q := x / s with hq
  by_cases h : 0 ≤ q
  · rw [if_pos h]
    have h1 := Int.floor_le q
    have h2 := Int.lt_floor_add_one q
    have h3 : (0 : ℚ) ≤ ⌊q⌋ := by exact_mod_cast Int.floor_nonneg.mpr h
    refine ⟨⟨_, rfl⟩, ?_, ?_, ?_⟩
    · rw [hx, abs_lt]; constructor <;> nlinarith
    · rw [hx, abs_of_nonneg (by positivity), abs_of_nonneg (by positivity)]; nlinarith
    · rw [hx]; positivity
  · rw [if_neg h]
    push Not at h
    have h1 := Int.le_ceil q
    have h2 := Int.ceil_lt_add_one q
    have h3 : ((⌈q⌉ : Int) : ℚ) ≤ 0 := by exact_mod_cast Int.ceil_le.mpr (by simpa using h.le)
    refine ⟨⟨_, rfl⟩, ?_, ?_, ?_⟩
    · rw [hx, abs_lt]; constructor <;> nlinarith
    · rw [hx, abs_of_nonpos (by nlinarith), abs_of_nonpos (by nlinarith)]; nlinarith
    · rw [hx]; nlinarith [mul_nonneg (neg_nonneg.mpr h.le) (neg_nonneg.mpr h3), mul_pos hs hs,
        mul_nonneg (mul_nonneg (neg_nonneg.mpr h.le) (neg_nonneg.mpr h3)) (mul_pos hs hs).le]

/-- **C40, quantized, rounding.** From the last event of the block on, a quantized envelope is the value of that event rounded
towards 0 to a multiple of the step. -/
theorem quantized_rounds (ops : List Midi.Op) (hop : ∀ op ∈ ops, 0 ≤ op.delay) (t : Midi.Target) (f : ℚ → ℚ) (size : Nat)
    (step lo hi : ℚ) (hstep : 0 < step) (hb : ∀ e ∈ Midi.vec (Midi.run ops) t, lo ≤ f e.value ∧ f e.value ≤ hi)
    (p : Midi.EventVector) (z : Midi.Event) (hz : Midi.vec (Midi.run ops) t = p ++ [z]) (i : Nat) (hi' : i < size) (hzi : z.delay ≤ (i : Int)) :
    ∃ log y, Envelope.quantEnvelope f (Midi.vec (Midi.run ops) t) size step = some log ∧ log i = [y] ∧ RoundsTo step (f z.value) y := by
  have bound : ∀ x, lo ≤ x → x ≤ hi → min lo 0 ≤ Envelope.quantize step x ∧ Envelope.quantize step x ≤ max hi 0 := by
    intro x h1 h2
    obtain ⟨_, _, h4, h5⟩ := trunc_mul step x hstep
    change |Envelope.quantize step x| ≤ |x| at h4
    change 0 ≤ x * Envelope.quantize step x at h5
    generalize Envelope.quantize step x = y at h4 h5
    rcases lt_trichotomy x 0 with h | h | h
    · have hy : y ≤ 0 := by nlinarith
      rw [abs_of_neg h, abs_of_nonpos hy] at h4
      exact ⟨le_trans (min_le_left _ _) (by linarith), le_trans hy (le_max_right _ _)⟩
    · subst h
      have hy : y = 0 := by simpa using h4
      subst hy
      exact ⟨min_le_right _ _, le_max_right _ _⟩
    · have hy : 0 ≤ y := by nlinarith
      rw [abs_of_pos h, abs_of_nonneg hy] at h4
      exact ⟨le_trans (min_le_right _ _) hy, le_trans (by linarith) (le_max_left _ _)⟩
  obtain ⟨log, h1, _, _, h4⟩ := Envelope.quantized_envelope_partial ops hop t f size step (min lo 0) (max hi 0) hstep
    (fun e he => bound _ (hb e he).1 (hb e he).2)
  exact ⟨log, _, h1, h4 p z hz i hi' hzi, trunc_mul _ _ hstep⟩

example : (Envelope.quantEnvelope (fun x => x) (Midi.vec (Midi.run [.cc 0 7 1, .cc 2 7 (-10/3)]) (.cc 7)) 6 (1/2)).map
    (fun l => l 5) = some [-3] := by decide +kernel

/-- **C81, voices.** After every history of calls, a controller that belongs to voices, used without smoothing, is for every
voice the value of that very voice over the whole block: whatever other voices play and whatever messages came since, and
generating it changes nothing. -/
theorem voice_controller (ops : List Op) (out : List (Key × Option Nat × List ℚ)) (s : State)
    (hr : run fresh ops = some (out, s)) (k : Key) (hs : k.smooth = 0) (hp : isPerVoice k.cc = true)
    (w : World) (i : Nat) (v : Voice) (hv : w.voices i = some v) (n : Nat) :
    ∃ y, generate s k (some i) w n = some (List.replicate n y, s) ∧
      (k.step = 0 → y = voiceValue (w.curve k.curve) v k.cc) ∧
      (0 < k.step → RoundsTo k.step (voiceValue (w.curve k.curve) v k.cc) y) := by
  have hc : s.smoothers k = none := by
    cases h : s.smoothers k with
    | none => rfl
    | some p =>
      have := run_clean ops fresh out s (fun _ _ h => by simp [fresh] at h) hr k p h
      omega
  obtain ⟨x, c, h1, h2⟩ := fillValue_voice w v k.cc (w.curve k.curve) hp
  refine ⟨quantize k.step (voiceValue (w.curve k.curve) v k.cc), ?_, ?_, ?_⟩
  · unfold generate raw smoothen
    simp only [Option.bind_some, hv, h1, h2, Option.map_some, hc]
  · intro h; rw [h, quantize_zero]
  · intro h
    unfold quantize
    rw [if_pos h]
    exact trunc_mul _ _ h

/-- The world of the examples: identity curves; controller 7 stays at 1/2, the pitch wheel at -1, controller 131 at 1; voice 1
was started with velocity 1, voice 2 with velocity 1/4. -/
def sampleWorld : World :=
  { curve := fun _ x => max 0 (min 1 x)
    events := fun cc => if cc = 7 then [⟨0, 1/2⟩] else if cc = 128 then [⟨0, -1⟩] else [⟨0, 1⟩]
    pressure := fun _ => 0
    voices := fun i => if i = 1 then some ⟨.noteOn, 60, 1, 0, 0, 0, 0, 0⟩
      else if i = 2 then some ⟨.noteOn, 64, 1/4, 0, 0, 0, 0, 0⟩ else none }

example : ∃ out s, run fresh [.init (makeKey 3 131 0 0 (1/10)) sampleWorld,
      .generate (makeKey 3 131 0 0 (1/10)) (some 1) sampleWorld 4] = some (out, s) ∧
    (generate s (makeKey 3 131 0 0 (1/10)) (some 2) sampleWorld 4).map (·.1) = some [1/5, 1/5, 1/5, 1/5] := by
  refine ⟨_, _, rfl, by decide +kernel⟩

/-! ## Keys do not disturb each other -/

/-- Two states that agree on a key. -/
def Agree (k : Key) (s s' : State) : Prop := s.sampleRate = s'.sampleRate ∧ s.smoothers k = s'.smoothers k

theorem agree_smoothen {k : Key} {s s' : State} (h : Agree k s s') (b : List ℚ × Bool) :
    (smoothen s k b).1 = (smoothen s' k b).1 ∧ Agree k (smoothen s k b).2 (smoothen s' k b).2 := by
  unfold smoothen
  rw [← h.2]
  cases hs : s.smoothers k with
  | none => exact ⟨rfl, h⟩
  | some p => exact ⟨rfl, h.1, by simp⟩

/-- **C81, separate sources.** The buffers of a source are the same in a history and in the history without the calls for
other sources. -/
theorem keys_apart (k : Key) (ops : List Op) : ∀ (s s' : State) out t, Agree k s s' → run s ops = some (out, t) →
    ∃ out' t', run s' (ops.filter (concerns k)) = some (out', t') ∧ buffersOf k out = buffersOf k out' ∧
      Agree k t t' := by
  induction ops with
  | nil =>
    intro s s' out t hA h
    simp only [run, Option.some.injEq, Prod.mk.injEq] at h
    exact ⟨[], s', rfl, by rw [← h.1], by rw [← h.2]; exact hA⟩
  | cons op ops ih =>
    intro s s' out t hA h
    cases op with
    | init j w =>
      by_cases hj : j = k
      · subst hj
        rw [List.filter_cons_of_pos (by simp [concerns])]
        refine ih _ _ _ _ ?_ h
        exact ⟨hA.1, by simp [init, hA.1]⟩
      · rw [List.filter_cons_of_neg (by simp [concerns, hj])]
        refine ih _ _ _ _ ?_ h
        have : ¬ k = j := fun h => hj h.symm
        exact ⟨hA.1, by simp [init, this, hA.2]⟩
    | setSampleRate r =>
      rw [List.filter_cons_of_pos (by simp [concerns])]
      refine ih _ _ _ _ ?_ h
      unfold setSampleRate
      rw [← hA.1]
      by_cases hr : s.sampleRate = r
      · simp only [hr, if_true]; exact hA
      · simp only [hr, if_false]; exact ⟨rfl, by simp [hA.2]⟩
    | resetSmoothers w =>
      rw [List.filter_cons_of_pos (by simp [concerns])]
      refine ih _ _ _ _ ?_ h
      exact ⟨hA.1, by simp [resetSmoothers, hA.2]⟩
    | generate j v w n =>
      simp only [run, generate] at h
      cases hg : raw w j v n with
      | none => simp [hg] at h
      | some b =>
        simp only [hg, Option.map_some] at h
        cases hr : run (smoothen s j b).2 ops with
        | none => simp [hr] at h
        | some r =>
          simp only [hr, Option.map_some, Option.some.injEq, Prod.mk.injEq] at h
          by_cases hj : j = k
          · subst hj
            rw [List.filter_cons_of_pos (by simp [concerns])]
            obtain ⟨e1, e2⟩ := agree_smoothen hA b
            obtain ⟨out', t', h1, h2, h3⟩ := ih _ (smoothen s' j b).2 _ _ e2 hr
            refine ⟨(j, v, (smoothen s' j b).1) :: out', t', ?_, ?_, h.2 ▸ h3⟩
            · simp only [run, generate, hg, Option.map_some, h1]
            · rw [← h.1]
              simp only [buffersOf, List.filter_cons, decide_true, if_true, List.map_cons, e1]
              rw [show List.map _ _ = _ from h2]; rfl
          · rw [List.filter_cons_of_neg (by simp [concerns, hj])]
            have hkj : k ≠ j := fun h => hj h.symm
            obtain ⟨out', t', h1, h2, h3⟩ := ih _ s' _ _
              ⟨(smoothen_rate s j b).trans hA.1, (smoothen_other s j k b hkj).trans hA.2⟩ hr
            refine ⟨out', t', h1, ?_, h.2 ▸ h3⟩
            rw [← h.1, ← h2]
            simp [buffersOf, hj]

example : ∃ out t, run fresh [.init (makeKey 0 7 0 1 0) sampleWorld, .init (makeKey 0 9 0 1 0) sampleWorld,
    .generate (makeKey 0 9 0 1 0) none sampleWorld 2, .generate (makeKey 0 7 0 1 0) none sampleWorld 3] = some (out, t) ∧
    buffersOf (makeKey 0 7 0 1 0) out = [(none, [1/2, 1/2, 1/2])] := ⟨_, _, rfl, by decide +kernel⟩

/-! ## Smoothing -/

theorem run_generates (k : Key) (sf : Int) (ops : List Op) (hg : ∀ op ∈ ops, isGenerate op = true) :
    ∀ (s : State) (st : Smoother.State) out t, s.smoothers k = some (sf, st) → run s ops = some (out, t) →
      ((buffersOf k out).map (·.2)).flatten = (Smoother.run sf st (blocks k ops)).1 := by
  induction ops with
  | nil =>
    intro s st out t hs h
    simp only [run, Option.some.injEq, Prod.mk.injEq] at h
    rw [← h.1]; rfl
  | cons op ops ih =>
    intro s st out t hs h
    cases op with
    | init j w => exact absurd (hg _ List.mem_cons_self) (by simp [isGenerate])
    | setSampleRate r => exact absurd (hg _ List.mem_cons_self) (by simp [isGenerate])
    | resetSmoothers w => exact absurd (hg _ List.mem_cons_self) (by simp [isGenerate])
    | generate j v w n =>
      have ih' := ih (fun op ho => hg op (List.mem_cons_of_mem _ ho))
      simp only [run, generate] at h
      cases hb : raw w j v n with
      | none => simp [hb] at h
      | some b =>
        simp only [hb, Option.map_some] at h
        cases hr : run (smoothen s j b).2 ops with
        | none => simp [hr] at h
        | some r =>
          simp only [hr, Option.map_some, Option.some.injEq, Prod.mk.injEq] at h
          rw [← h.1]
          by_cases hj : j = k
          · subst hj
            have h1 : (smoothen s j b).1 = (Smoother.process sf st b.1 b.2).1 := by simp [smoothen, hs]
            have h2 : (smoothen s j b).2.smoothers j = some (sf, (Smoother.process sf st b.1 b.2).2) := by simp [smoothen, hs]
            have := ih' _ _ _ _ h2 hr
            simp only [buffersOf, List.filter_cons, decide_true, if_true, List.map_cons, List.flatten_cons, blocks, hb,
              Option.getD_some, Smoother.run, h1] at this ⊢
            rw [this]
          · have hkj : k ≠ j := fun h => hj h.symm
            have := ih' _ _ _ _ ((smoothen_other s j k b hkj).trans hs) hr
            simp only [buffersOf, List.filter_cons, hj, decide_false, Bool.false_eq_true, if_false, blocks] at this ⊢
            exact this

/-- **C81, smoothing.** From the start of a smoothed source on, whatever other sources are generated in between, the frames of
its buffers are the output of one smoother over the frames before smoothing, starting from the value of the controller through
the curve. -/
theorem smoothed_source (s : State) (k : Key) (hk : 0 < k.smooth) (w₀ : World) (ops : List Op)
    (hg : ∀ op ∈ ops, isGenerate op = true) (out : List (Key × Option Nat × List ℚ)) (t : State)
    (h : run s (.init k w₀ :: ops) = some (out, t)) :
    ((buffersOf k out).map (·.2)).flatten =
      (Smoother.run (Smoother.smoothFrames k.smooth s.sampleRate)
        (Smoother.reset (w₀.curve k.curve (lastValue w₀ k.cc))) (blocks k ops)).1 :=
  run_generates k _ ops hg (init s k w₀) _ out t (by simp [init, hk, lastTransformed]) h

/-- **C81, smoothing, range.** A smoothed source stays between bounds of its starting value and of the values before
smoothing. -/
theorem smoothed_between (s : State) (k : Key) (hk : 0 < k.smooth) (w₀ : World) (ops : List Op)
    (hg : ∀ op ∈ ops, isGenerate op = true) (out : List (Key × Option Nat × List ℚ)) (t : State)
    (h : run s (.init k w₀ :: ops) = some (out, t)) (lo hi : ℚ)
    (h0 : lo ≤ w₀.curve k.curve (lastValue w₀ k.cc) ∧ w₀.curve k.curve (lastValue w₀ k.cc) ≤ hi)
    (hb : ∀ b ∈ blocks k ops, ∀ x ∈ b.1, lo ≤ x ∧ x ≤ hi) :
    ∀ b ∈ buffersOf k out, ∀ y ∈ b.2, lo ≤ y ∧ y ≤ hi := by
  intro b hbm y hy
  have := smoothed_source s k hk w₀ ops hg out t h
  have hm : y ∈ ((buffersOf k out).map (·.2)).flatten :=
    List.mem_flatten.mpr ⟨b.2, List.mem_map_of_mem hbm, hy⟩
  rw [this] at hm
  exact Smoother.smoother_stays_between _ _ lo hi _ h0 hb y hm

example : ∃ out t, run fresh [.init (makeKey 0 7 0 1 0) { sampleWorld with events := fun _ => [⟨0, 1⟩] },
    .generate (makeKey 0 9 0 0 0) none sampleWorld 2, .generate (makeKey 0 7 0 1 0) none sampleWorld 3,
    .generate (makeKey 0 7 0 1 0) none sampleWorld 2] = some (out, t) ∧
    buffersOf (makeKey 0 7 0 1 0) out = [(none, [95/96, 47/48, 31/32]), (none, [23/24, 91/96])] :=
  ⟨_, _, rfl, by decide +kernel⟩

theorem fillValue_ordinary (w : World) (v : Option Voice) {cc : Nat} (h : Ordinary cc) : fillValue w v cc = none := by
  unfold fillValue
  unfold Ordinary at h
  repeat rw [if_neg (by omega)]

theorem linear_single (f : ℚ → ℚ) (x : ℚ) (n : Nat) :
    ∃ log, Envelope.linearEnvelope f [⟨0, x⟩] n = some log ∧ ∀ i, i < n → log i = [f x] := by
  obtain ⟨log, h1, _, h3⟩ := Envelope.linear_spec f x [] (by simp [Midi.Sorted]) n
  exact ⟨log, h1, fun i hi => by rw [h3 i hi]; rfl⟩

/-- A controller that does not move, before smoothing. -/
theorem raw_still (w : World) (k : Key) (ho : Ordinary k.cc) (x : ℚ) (hx : w.events k.cc = [⟨0, x⟩]) (v : Option Nat) (n : Nat)
    (hst : k.step = 0) : raw w k v n = some (List.replicate n (w.curve k.curve x), true) := by
  unfold raw
  rw [fillValue_ordinary w _ ho]
  have hne : ¬ (k.cc = 128 ∨ k.cc = 129) := by unfold Ordinary at ho; omega
  obtain ⟨log, h1, h2⟩ := linear_single (w.curve k.curve) x n
  simp only [if_neg hne, hx, hst, Envelope.quantEnvelope, if_true, h1, Option.map_some]
  congr 2
  apply List.ext_getElem
  · simp
  · intro i hi _
    simp at hi
    simp [h2 i hi]

/-- **C81, rest.** An ordinary controller without steps that does not move from the start of the source on gives its value
through the curve on every frame, with or without smoothing.  `_partial`: with steps, for the pitch wheel and for the channel
pressure, smoothing starts elsewhere. -/
theorem still_partial (s : State) (k : Key) (ho : Ordinary k.cc) (hst : k.step = 0) (w₀ : World) (x : ℚ)
    (hx : w₀.events k.cc = [⟨0, x⟩]) (ops : List Op)
    (hg : ∀ op ∈ ops, ∃ j v w n, op = .generate j v w n ∧ w.events k.cc = [⟨0, x⟩] ∧ w.curve = w₀.curve)
    (out : List (Key × Option Nat × List ℚ)) (t : State) (h : run s (.init k w₀ :: ops) = some (out, t)) :
    ∀ b ∈ buffersOf k out, ∀ y ∈ b.2, y = w₀.curve k.curve x := by
  have hlast : lastValue w₀ k.cc = x := by simp [lastValue, hx, Midi.backValue]
  have hgen : ∀ op ∈ ops, isGenerate op = true := by
    intro op hop
    obtain ⟨j, v, w, n, rfl, _⟩ := hg op hop
    rfl
  have hb : ∀ b ∈ blocks k ops, ∀ y ∈ b.1, y = w₀.curve k.curve x := by
    clear h hgen
    induction ops with
    | nil => simp [blocks]
    | cons op ops ih =>
      obtain ⟨j, v, w, n, rfl, h1, h2⟩ := hg op List.mem_cons_self
      have ih' := ih (fun op ho => hg op (List.mem_cons_of_mem _ ho))
      simp only [blocks]
      split
      · rw [raw_still w k ho x h1 v n hst]
        intro b hbm y hy
        rcases List.mem_cons.mp hbm with rfl | hbm
        · rw [← h2]; exact List.eq_of_mem_replicate hy
        · exact ih' b hbm y hy
      · exact ih'
  by_cases hk : 0 < k.smooth
  · intro b hbm y hy
    have := smoothed_between s k hk w₀ ops hgen out t h (w₀.curve k.curve x) (w₀.curve k.curve x)
      (by rw [hlast]; exact ⟨le_refl _, le_refl _⟩) (fun b hb' y hy => by rw [hb b hb' y hy]; exact ⟨le_refl _, le_refl _⟩)
      b hbm y hy
    exact le_antisymm this.2 this.1
  · have key : ∀ (ops : List Op) (s : State) out t, (∀ op ∈ ops, isGenerate op = true) → s.smoothers k = none →
        run s ops = some (out, t) → ∀ b ∈ buffersOf k out, ∃ c ∈ blocks k ops, b.2 = c.1 := by
      intro ops
      induction ops with
      | nil =>
        intro s out t _ _ h
        simp only [run, Option.some.injEq, Prod.mk.injEq] at h
        rw [← h.1]; simp [buffersOf]
      | cons op ops ih =>
        intro s out t hgen hs h
        cases op with
        | init j w => exact absurd (hgen _ List.mem_cons_self) (by simp [isGenerate])
        | setSampleRate r => exact absurd (hgen _ List.mem_cons_self) (by simp [isGenerate])
        | resetSmoothers w => exact absurd (hgen _ List.mem_cons_self) (by simp [isGenerate])
        | generate j v w n =>
          simp only [run, generate] at h
          cases hb' : raw w j v n with
          | none => simp [hb'] at h
          | some c =>
            simp only [hb', Option.map_some] at h
            cases hr : run (smoothen s j c).2 ops with
            | none => simp [hr] at h
            | some r =>
              simp only [hr, Option.map_some, Option.some.injEq, Prod.mk.injEq] at h
              have hs' : (smoothen s j c).2.smoothers k = none := by
                by_cases hj : k = j
                · subst hj; simp [smoothen, hs]
                · rw [smoothen_other _ _ _ _ hj, hs]
              have ih' := ih _ _ _ (fun op ho => hgen op (List.mem_cons_of_mem _ ho)) hs' hr
              rw [← h.1]
              by_cases hj : j = k
              · subst hj
                intro b hbm
                simp only [buffersOf, List.filter_cons, decide_true, if_true, List.map_cons, List.mem_cons] at hbm
                simp only [blocks, if_true, hb', Option.getD_some, List.mem_cons, exists_eq_or_imp]
                rcases hbm with rfl | hbm
                · left; simp [smoothen, hs]
                · right; exact ih' b hbm
              · intro b hbm
                simp only [buffersOf, List.filter_cons, hj, decide_false, Bool.false_eq_true, if_false] at hbm
                simp only [blocks, hj, if_false]
                exact ih' b hbm
    intro b hbm y hy
    obtain ⟨c, hc, e⟩ := key ops (init s k w₀) out t hgen (by simp [init, hk]) h b hbm
    exact hb c hc y (e ▸ hy)

example : ∃ out t, run fresh [.init (makeKey 0 7 0 1 0) sampleWorld, .generate (makeKey 0 7 0 1 0) (some 1) sampleWorld 3,
    .generate (makeKey 0 7 0 1 0) (some 1) sampleWorld 1] = some (out, t) ∧
    buffersOf (makeKey 0 7 0 1 0) out = [(some 1, [1/2, 1/2, 1/2]), (some 1, [1/2])] := ⟨_, _, rfl, by decide +kernel⟩

/-- **C81, rest.** A pitch wheel at rest at its lowest position, smoothed over a millisecond: the source starts from 0, because
the value that smoothing starts from goes through the curve while the values themselves do not. -/
theorem still_violated :
    ∃ out t, run fresh [.init (makeKey 0 128 0 1 0) sampleWorld, .generate (makeKey 0 128 0 1 0) none sampleWorld 2] =
        some (out, t) ∧
      buffersOf (makeKey 0 128 0 1 0) out = [(none, [-1/48, -1/24])] ∧
      (run fresh [.init (makeKey 0 128 0 0 0) sampleWorld, .generate (makeKey 0 128 0 0 0) none sampleWorld 2]).map
        (fun r => buffersOf (makeKey 0 128 0 0 0) r.1) = some [(none, [-1, -1])] :=
  ⟨_, _, rfl, by decide +kernel, by decide +kernel⟩

/-! ## Voices share a smoother -/

/-- The second note came after: controller 131 is now 1/4. -/
def laterWorld : World := { sampleWorld with events := fun cc => if cc = 131 then [⟨0, 1/4⟩] else sampleWorld.events cc }

/-- **C81, voices.** With smoothing the voices of a region are not independent: the velocity of a voice started with velocity 1
is 1 as long as it plays alone, and jumps down to about 1/4 as soon as a second voice of the region, of velocity 1/4, starts,
because the smoother belongs to the source and not to the voice. -/
theorem voices_independent_violated :
    let k := makeKey 3 131 0 1 0
    (run fresh [.init k sampleWorld, .generate k (some 1) sampleWorld 2, .generate k (some 1) sampleWorld 2]).map
        (fun r => buffersOf k r.1) = some [(some 1, [1, 1]), (some 1, [1, 1])] ∧
      (run fresh [.init k sampleWorld, .generate k (some 1) sampleWorld 2, .init k laterWorld,
          .generate k (some 1) laterWorld 2, .generate k (some 2) laterWorld 2]).map (fun r => buffersOf k r.1) =
        some [(some 1, [1, 1]), (some 1, [17/64, 9/32]), (some 2, [431/1536, 215/768])] := by
  constructor <;> decide +kernel

/-! ## Steps -/

theorem raw_still_steps (w : World) (k : Key) (ho : Ordinary k.cc) (x : ℚ) (hx : w.events k.cc = [⟨0, x⟩]) (v : Option Nat)
    (n : Nat) (hst : 0 < k.step) :
    raw w k v n = some (List.replicate n (Envelope.trunc (w.curve k.curve x / k.step) * k.step), true) := by
  unfold raw
  rw [fillValue_ordinary w _ ho]
  have hne : ¬ (k.cc = 128 ∨ k.cc = 129) := by unfold Ordinary at ho; omega
  simp only [if_neg hne, hx, Envelope.quantEnvelope, hst.ne', if_false]
  by_cases hn : n = 0
  · subst hn; simp
  · simp only [hn, if_false, Envelope.quantLoop, Envelope.fillRest]
    rw [Envelope.subspan_rest (le_refl _) (by omega)]
    simp only [Option.map_some, List.length_singleton, beq_self_eq_true, Option.some.injEq, Prod.mk.injEq, and_true]
    apply List.ext_getElem
    · simp
    · intro i hi _
      simp at hi
      simp [Envelope.write, hi, Envelope.quantize]

/-- **C81, steps.** A controller that is not per voice, with a positive depth and a step: what it adds to its target, the depth
times the source, is the continuous contribution rounded towards 0 to a multiple of the step.  `_partial`: neither negative
depths nor the controllers of voices. Stated for a controller that does not move. -/
theorem steps_partial (w : World) (region cc curve smooth : Nat) (step depth : ℚ) (hd : 0 < depth) (hs : 0 < step)
    (ho : Ordinary cc) (x : ℚ) (hx : w.events cc = [⟨0, x⟩]) (v : Option Nat) (n : Nat) :
    ∃ y, raw w (prepare depth (makeKey region cc curve smooth step)) v n = some (List.replicate n y, true) ∧
      RoundsTo step (depth * w.curve curve x) (depth * y) := by
  have hp : isPerVoice cc = false := by
    unfold Ordinary at ho
    simp only [isPerVoice, List.mem_cons, List.not_mem_nil, or_false, decide_eq_false_iff_not]
    omega
  have hk : prepare depth (makeKey region cc curve smooth step) = ⟨none, cc, curve, smooth, step / depth⟩ := by
    simp [prepare, makeKey, hp, not_le.mpr hd]
  rw [hk]
  refine ⟨_, raw_still_steps w _ ho x hx v n (by positivity), ?_⟩
  have e1 : depth * (Envelope.trunc (w.curve curve x / (step / depth)) * (step / depth)) =
      Envelope.trunc (depth * w.curve curve x / step) * step := by
    rw [show w.curve curve x / (step / depth) = depth * w.curve curve x / step by field_simp]
    field_simp
  show RoundsTo step _ (depth * (Envelope.trunc (w.curve curve x / (step / depth)) * (step / depth)))
  rw [e1]
  exact trunc_mul _ _ hs

example : raw sampleWorld (prepare 1200 (makeKey 0 7 0 0 500)) none 2 = some ([5/12, 5/12], true) ∧
    (1200 : ℚ) * (5/12) = 500 := by constructor <;> decide +kernel

/-- **C81, steps.** For the controllers of voices the step is not scaled: with a depth of 1200 cents and steps of 100 cents a
velocity of 1/4 adds nothing, where the same depth and steps on an ordinary controller of the same value give 300 cents.  And
with a negative depth there are no steps at all. -/
theorem steps_violated :
    (raw sampleWorld (prepare 1200 (makeKey 0 131 0 0 100)) (some 2) 1).map (fun r => r.1.map (1200 * ·)) = some [0] ∧
      (raw { sampleWorld with events := fun _ => [⟨0, 1/4⟩] } (prepare 1200 (makeKey 0 7 0 0 100)) (some 2) 1).map
        (fun r => r.1.map (1200 * ·)) = some [300] ∧
      (raw sampleWorld (prepare (-1100) (makeKey 0 7 0 0 100)) none 1).map (fun r => r.1.map (-1100 * ·)) = some [-550] := by
  refine ⟨?_, ?_, ?_⟩ <;> decide +kernel

end Verif.Controller
