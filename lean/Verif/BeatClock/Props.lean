import Verif.BeatClock.Model
import Mathlib.Tactic.Linarith
import Mathlib.Tactic.FieldSimp
import Mathlib.Tactic.Ring
import Mathlib.Algebra.BigOperators.Group.Finset.Basic

/-! C34: the beat clock. -/
namespace Verif.BeatClock

/-! ### Specification

The musical time is counted in whole notes, which do not depend on the time signature. -/

/-- What the host has set. -/
structure Setting where
  period : ℚ
  beatsPerSecond : ℚ
  sig : Sig
  playing : Bool

/-- Whole notes elapsing in a frame. -/
def Setting.rate (t : Setting) : ℚ := if t.playing then t.beatsPerSecond * t.period / t.sig.beatUnit else 0

/-- A position in whole notes. -/
def whole (p : BBT) (s : Sig) : ℚ := (p.beat + p.bar * s.beatsPerBar) / s.beatUnit

/-- Effect of an event on the setting. -/
def Setting.after (t : Setting) : Event → Setting
  | .tempo spb => { t with beatsPerSecond := 1 / spb }
  | .signature s => if 0 < s.beatsPerBar ∧ 0 < s.beatUnit then { t with sig := s } else t
  | .position _ => t
  | .playing b => { t with playing := b }

/-- The time given by the last position event of a frame, if any. -/
def hostTime (t : Setting) (h : Option ℚ) : List Event → Option ℚ
  | [] => h
  | .position p :: es => hostTime t (some (whole p t.sig)) es
  | e :: es => hostTime (t.after e) h es

/-- The setting at frame `k`, the events of this frame included. -/
def settingAt (t : Setting) (evs : Nat → List Event) : Nat → Setting
  | 0 => (evs 0).foldl Setting.after t
  | k + 1 => (evs (k + 1)).foldl Setting.after (settingAt t evs k)

/-- The setting before the events of frame `k`. -/
def settingBefore (t : Setting) (evs : Nat → List Event) : Nat → Setting
  | 0 => t
  | k + 1 => settingAt t evs k

/-- The time at the end of frame `k - 1`: at each frame the position given by the host, or the duration of the frame more. -/
def timeBefore (t : Setting) (evs : Nat → List Event) (w : ℚ) : Nat → ℚ
  | 0 => w
  | k + 1 => (hostTime (settingBefore t evs k) none (evs k)).getD (timeBefore t evs w k + (settingAt t evs k).rate)

/-- The events of a cycle of `n` frames in order. -/
def inOrder (evs : Nat → List Event) : Nat → List (Nat × Event)
  | 0 => []
  | n + 1 => inOrder evs n ++ (evs n).map (fun e => (n, e))

/-- The setting of a clock. -/
def Clock.setting (c : Clock) : Setting := ⟨c.samplePeriod, c.beatsPerSecond, c.sig, c.playing⟩

/-- The time of a clock: the last position in whole notes. -/
def Clock.time (c : Clock) : ℚ := whole c.clientPos c.sig

/-! ### Lemmas -/

theorem toBeats_fromBeats (s : Sig) (b : ℚ) : (BBT.fromBeats s b).toBeats s = b := by
  unfold BBT.fromBeats BBT.toBeats
  simp

theorem whole_eq (p : BBT) (s : Sig) : whole p s = p.toBeats s / s.beatUnit := rfl

theorem whole_toSignature (p : BBT) (a b : Sig) (ha : 0 < a.beatUnit) (hb : 0 < b.beatUnit) :
    whole (p.toSignature a b) b = whole p a := by
  have h1 : (a.beatUnit : ℚ) ≠ 0 := by exact_mod_cast ha.ne'
  have h2 : (b.beatUnit : ℚ) ≠ 0 := by exact_mod_cast hb.ne'
  rw [whole_eq, whole_eq]
  unfold BBT.toSignature
  rw [toBeats_fromBeats]
  field_simp

theorem ticks_add (c : Clock) (m n : Nat) : c.ticks (m + n) = (c.ticks m).ticks n := by
  induction m generalizing c with
  | zero => simp [Clock.ticks]
  | succ m ih => rw [Nat.succ_add]; exact ih _

/-- Fields the fill keeps. -/
structure Same (c c' : Clock) : Prop where
  period : c'.samplePeriod = c.samplePeriod
  bps : c'.beatsPerSecond = c.beatsPerSecond
  sig : c'.sig = c.sig
  playing : c'.playing = c.playing
  frames : c'.frames = c.frames
  buffer : c'.bufferSize = c.bufferSize
  host : c'.hostPos = c.hostPos

theorem Same.refl (c : Clock) : Same c c := ⟨rfl, rfl, rfl, rfl, rfl, rfl, rfl⟩

theorem Same.trans {a b c : Clock} (h : Same a b) (g : Same b c) : Same a c :=
  ⟨g.1.trans h.1, g.2.trans h.2, g.3.trans h.3, g.4.trans h.4, g.5.trans h.5, g.6.trans h.6, g.7.trans h.7⟩

theorem tick_same (c : Clock) : Same c c.tick := ⟨rfl, rfl, rfl, rfl, rfl, rfl, rfl⟩

theorem ticks_same (c : Clock) (n : Nat) : Same c (c.ticks n) ∧ (c.ticks n).fill = c.fill + n := by
  induction n generalizing c with
  | zero => exact ⟨Same.refl c, rfl⟩
  | succ n ih =>
    obtain ⟨h1, h2⟩ := ih c.tick
    refine ⟨(tick_same c).trans h1, ?_⟩
    rw [Clock.ticks, h2]
    show c.fill + 1 + n = _
    omega

theorem fillTo_same {c c' : Clock} {d : Nat} (h : c.fillTo d = some c') : Same c c' ∧ c'.fill = max c.fill d := by
  unfold Clock.fillTo at h
  split at h
  · cases h
  · simp only [Option.some.injEq] at h
    subst h
    split
    · obtain ⟨h1, h2⟩ := ticks_same (c.fillPerBar d) (d - (c.fillPerBar d).fill)
      refine ⟨Same.trans (show Same c (c.fillPerBar d) from ⟨rfl, rfl, rfl, rfl, rfl, rfl, rfl⟩) h1, ?_⟩
      rw [h2]
      show c.fill + (d - c.fill) = _
      omega
    · exact ⟨⟨rfl, rfl, rfl, rfl, rfl, rfl, rfl⟩, rfl⟩

/-- Clocks up to the signature buffer, which is not read. -/
structure Eqv (a b : Clock) : Prop where
  same : Same a b
  fill : b.fill = a.fill
  must : b.mustApply = a.mustApply
  client : b.clientPos = a.clientPos
  position : b.position = a.position
  number : b.number = a.number

/-- The part of the state that matters for the time: everything but the signature buffer. -/
def Clock.core (c : Clock) : Clock := { c with perBar := fun _ => 0 }

theorem core_tick (c : Clock) : c.tick.core = c.core.tick := rfl

theorem core_ticks (c : Clock) (n : Nat) : (c.ticks n).core = c.core.ticks n := by
  induction n generalizing c with
  | zero => rfl
  | succ n ih => rw [Clock.ticks, Clock.ticks, ih, core_tick]

/-- `fillTo` on cores. -/
def Clock.advance (c : Clock) (d : Nat) : Clock := if c.playing then c.ticks (d - c.fill) else c.hold d

theorem fillTo_core (c : Clock) (d : Nat) (h : d ≤ c.bufferSize) : (c.fillTo d).map Clock.core = some (c.core.advance d) := by
  unfold Clock.fillTo
  rw [if_neg (by omega)]
  simp only [Option.map_some, Option.some.injEq]
  unfold Clock.advance
  show Clock.core (if c.playing = true then _ else _) = if c.playing = true then _ else _
  by_cases hp : c.playing = true
  · rw [if_pos hp, if_pos hp, core_ticks]; rfl
  · rw [if_neg hp, if_neg hp]; rfl

theorem apply_core (c : Clock) (e : Event) : (c.apply e).core = c.core.apply e := by
  cases e with
  | signature s =>
    simp only [Clock.apply]
    by_cases h1 : s.valid = false
    · rw [if_pos h1, if_pos h1]
    · rw [if_neg h1, if_neg h1]
      show Clock.core (if c.sig = s then _ else _) = if c.sig = s then _ else _
      by_cases h2 : c.sig = s
      · rw [if_pos h2, if_pos h2]
      · rw [if_neg h2, if_neg h2]; rfl
  | _ => rfl

theorem advance_buffer (c : Clock) (d : Nat) : (c.advance d).bufferSize = c.bufferSize ∧ (c.advance d).fill = max c.fill d ∧
    (c.advance d).frames = c.frames ∧ (c.advance d).playing = c.playing := by
  unfold Clock.advance
  split
  · obtain ⟨h1, h2⟩ := ticks_same c (d - c.fill)
    exact ⟨h1.buffer, by rw [h2]; omega, h1.frames, h1.playing⟩
  · exact ⟨rfl, rfl, rfl, rfl⟩

theorem apply_keeps (c : Clock) (e : Event) : (c.apply e).bufferSize = c.bufferSize ∧ (c.apply e).fill = c.fill ∧ (c.apply e).frames = c.frames := by
  cases e with
  | signature s => simp only [Clock.apply]; split <;> [exact ⟨rfl, rfl, rfl⟩; (split <;> exact ⟨rfl, rfl, rfl⟩)]
  | _ => exact ⟨rfl, rfl, rfl⟩

/-- Events of one frame on cores. -/
def Clock.frameEvents (c : Clock) (k : Nat) : List Event → Clock
  | [] => c
  | e :: es => ((c.advance k).apply e).frameEvents k es

theorem events_append (c : Clock) (a b : List (Nat × Event)) : c.events (a ++ b) = (c.events a).bind (·.events b) := by
  induction a generalizing c with
  | nil => rfl
  | cons x a ih =>
    obtain ⟨d, e⟩ := x
    show (c.event d e).bind _ = ((c.event d e).bind _).bind _
    cases c.event d e with
    | none => rfl
    | some c' => exact ih c'

theorem event_core (c : Clock) (d : Nat) (e : Event) (h : d ≤ c.bufferSize) :
    ∃ c', c.event d e = some c' ∧ c'.core = (c.core.advance d).apply e ∧ c'.bufferSize = c.bufferSize ∧ c'.frames = c.frames := by
  have hf := fillTo_core c d h
  rw [Option.map_eq_some_iff] at hf
  obtain ⟨c1, h1, h2⟩ := hf
  refine ⟨c1.apply e, by unfold Clock.event; rw [h1]; rfl, by rw [apply_core, h2], ?_, ?_⟩
  · rw [(apply_keeps c1 e).1, (fillTo_same h1).1.buffer]
  · rw [(apply_keeps c1 e).2.2, (fillTo_same h1).1.frames]

theorem frame_core (c : Clock) (k : Nat) (es : List Event) (h : k ≤ c.bufferSize) :
    ∃ c', c.events (es.map (fun e => (k, e))) = some c' ∧ c'.core = c.core.frameEvents k es ∧ c'.bufferSize = c.bufferSize ∧
      c'.frames = c.frames := by
  induction es generalizing c with
  | nil => exact ⟨c, rfl, rfl, rfl, rfl⟩
  | cons e es ih =>
    obtain ⟨c1, h1, h2, h3, h4⟩ := event_core c k e h
    obtain ⟨c2, g1, g2, g3, g4⟩ := ih c1 (by omega)
    refine ⟨c2, ?_, by rw [g2, h2]; rfl, by omega, by omega⟩
    show (c.event k e).bind _ = _
    rw [h1]; exact g1

/-- The state when the events of the frames before `k` have been received. -/
def Clock.received (c : Clock) (evs : Nat → List Event) : Nat → Clock
  | 0 => c
  | k + 1 => (c.received evs k).frameEvents k (evs k)

/-- The same, up to date at frame `k`. -/
def Clock.upTo (c : Clock) (evs : Nat → List Event) : Nat → Clock
  | 0 => c.advance 0
  | k + 1 => ((c.upTo evs k).frameEvents k (evs k)).advance (k + 1)

theorem inOrder_core (c : Clock) (evs : Nat → List Event) (n : Nat) (h : n ≤ c.bufferSize) :
    ∃ c', c.events (inOrder evs n) = some c' ∧ c'.core = c.core.received evs n ∧ c'.bufferSize = c.bufferSize ∧ c'.frames = c.frames := by
  induction n with
  | zero => exact ⟨c, rfl, rfl, rfl, rfl⟩
  | succ n ih =>
    obtain ⟨c1, h1, h2, h3, h4⟩ := ih (by omega)
    obtain ⟨c2, g1, g2, g3, g4⟩ := frame_core c1 n (evs n) (by omega)
    refine ⟨c2, ?_, by rw [g2, h2]; rfl, by omega, by omega⟩
    rw [inOrder, events_append, h1]; exact g1

theorem fill_fill {β : Type} (f a b : Nat) (hf : f ≤ a) (h : a ≤ b) (x : β) (p : Nat → β) :
    (fun j => if max f a ≤ j ∧ j < b then x else if f ≤ j ∧ j < a then x else p j) = fun j => if f ≤ j ∧ j < b then x else p j := by
  funext j
  by_cases h1 : max f a ≤ j ∧ j < b
  · rw [if_pos h1, if_pos (by omega)]
  · rw [if_neg h1]
    by_cases h2 : f ≤ j ∧ j < a
    · rw [if_pos h2, if_pos (by omega)]
    · rw [if_neg h2, if_neg (by omega)]

theorem hold_hold (c : Clock) (a b : Nat) (hf : c.fill ≤ a) (h : a ≤ b) : (c.hold a).hold b = c.hold b := by
  unfold Clock.hold
  simp only [Bool.false_eq_true, if_false, Clock.mk.injEq, true_and, and_true]
  exact ⟨by omega, fill_fill _ _ _ hf h _ _, fill_fill _ _ _ hf h _ _⟩

theorem advance_advance (c : Clock) (a b : Nat) (hf : c.fill ≤ a) (h : a ≤ b) : (c.advance a).advance b = c.advance b := by
  by_cases hp : c.playing = true
  · have h1 : c.advance a = c.ticks (a - c.fill) := if_pos hp
    have h2 : c.advance b = c.ticks (b - c.fill) := if_pos hp
    obtain ⟨hs, hfill⟩ := ticks_same c (a - c.fill)
    rw [h1, h2]
    unfold Clock.advance
    rw [if_pos (by rw [hs.playing]; exact hp), hfill, ← ticks_add]
    congr 1
    omega
  · have h1 : c.advance a = c.hold a := if_neg hp
    have h2 : c.advance b = c.hold b := if_neg hp
    rw [h1, h2]
    unfold Clock.advance
    rw [if_neg (show ¬ (c.hold a).playing = true from hp), hold_hold c a b hf h]

theorem frameEvents_advance (c : Clock) (k : Nat) (es : List Event) (hes : es ≠ []) (hf : c.fill ≤ k) :
    (c.advance k).frameEvents k es = c.frameEvents k es := by
  cases es with
  | nil => exact absurd rfl hes
  | cons e es =>
    simp only [Clock.frameEvents]
    rw [advance_advance c k k hf (le_refl _)]

theorem frameEvents_fill (c : Clock) (k : Nat) (es : List Event) (hf : c.fill ≤ k) : (c.frameEvents k es).fill ≤ k := by
  induction es generalizing c with
  | nil => exact hf
  | cons e es ih =>
    apply ih
    rw [(apply_keeps _ e).2.1, (advance_buffer c k).2.1]
    omega

theorem received_fill (c : Clock) (evs : Nat → List Event) (h0 : c.fill = 0) (k : Nat) : (c.received evs k).fill ≤ k := by
  induction k with
  | zero => exact le_of_eq h0
  | succ k ih => exact le_trans (frameEvents_fill _ k _ ih) (by omega)

theorem received_upTo (c : Clock) (evs : Nat → List Event) (h0 : c.fill = 0) (k : Nat) :
    (c.received evs k).advance k = c.upTo evs k := by
  induction k with
  | zero => rfl
  | succ k ih =>
    have hf := received_fill c evs h0 k
    rw [Clock.received, Clock.upTo, ← ih]
    by_cases he : evs k = []
    · rw [he]
      simp only [Clock.frameEvents]
      rw [advance_advance _ k (k + 1) hf (by omega)]
    · rw [frameEvents_advance _ k _ he hf]

/-! ### One frame -/

/-- A frame where the host does not give a position and start. -/
def NoJumpStart (es : List Event) : Prop := (∀ p, Event.position p ∉ es) ∨ Event.playing true ∉ es

/-- The clock inside a frame: setting `t`, time `w` before the frame, host time `h` given in the frame. -/
structure Inside (c : Clock) (t : Setting) (w : ℚ) (h : Option ℚ) : Prop where
  setting : c.setting = t
  unit : 0 < c.sig.beatUnit
  pending : c.mustApply = true → h = some (whole c.hostPos c.sig)
  none_ : c.mustApply = false → h = none → c.time = w
  some_ : ∀ x, c.mustApply = false → h = some x → c.time = x ∧ c.playing = false

theorem advance_here (c : Clock) (k : Nat) (hk : c.fill = k) : c.advance k = if c.playing then c else c.hold k := by
  unfold Clock.advance
  split
  · rw [hk, Nat.sub_self]; rfl
  · rfl

theorem inside_advance {c : Clock} {t : Setting} {w : ℚ} {h : Option ℚ} {k : Nat} (hk : c.fill = k) (hi : Inside c t w h) :
    Inside (c.advance k) t w h := by
  rw [advance_here c k hk]
  by_cases hp : c.playing = true
  · rw [if_pos hp]; exact hi
  · rw [if_neg hp]
    have hp' : c.playing = false := by simpa using hp
    refine ⟨hi.setting, hi.unit, fun hh => absurd hh (by simp [Clock.hold]), ?_, ?_⟩
    · intro _ hn
      unfold Clock.time Clock.hold
      simp only
      by_cases hm : c.mustApply = true
      · rw [hi.pending hm] at hn; cases hn
      · rw [if_neg hm]; exact hi.none_ (by simpa using hm) hn
    · intro x _ hx
      refine ⟨?_, hp'⟩
      unfold Clock.time Clock.hold
      simp only
      by_cases hm : c.mustApply = true
      · rw [if_pos hm]
        have := hi.pending hm
        rw [hx] at this
        exact (Option.some.inj this).symm
      · rw [if_neg hm]; exact (hi.some_ x (by simpa using hm) hx).1

/-- The host time after one event. -/
def hostAfter (t : Setting) (h : Option ℚ) : Event → Option ℚ
  | .position p => some (whole p t.sig)
  | _ => h

theorem hostTime_cons (t : Setting) (h : Option ℚ) (e : Event) (es : List Event) :
    hostTime t h (e :: es) = hostTime (t.after e) (hostAfter t h e) es := by
  cases e <;> rfl

theorem inside_apply {c : Clock} {t : Setting} {w : ℚ} {h : Option ℚ} (hi : Inside c t w h) (e : Event)
    (hj : h ≠ none → e ≠ .playing true) : Inside (c.apply e) (t.after e) w (hostAfter t h e) := by
  obtain ⟨h1, h2, h3, h4, h5⟩ := hi
  cases e with
  | tempo spb =>
    refine ⟨?_, h2, h3, h4, h5⟩
    rw [← h1]; rfl
  | signature s =>
    simp only [Clock.apply, Setting.after, hostAfter]
    by_cases hv : s.valid = false
    · rw [if_pos hv, if_neg]
      · exact ⟨h1, h2, h3, h4, h5⟩
      · unfold Sig.valid at hv
        simpa using hv
    · have hv' : 0 < s.beatsPerBar ∧ 0 < s.beatUnit := by
        unfold Sig.valid at hv
        simpa using hv
      rw [if_neg hv, if_pos hv']
      by_cases hs : c.sig = s
      · rw [if_pos hs]
        refine ⟨?_, h2, h3, h4, h5⟩
        rw [← h1]
        unfold Clock.setting
        rw [hs]
      · rw [if_neg hs]
        refine ⟨by rw [← h1]; rfl, hv'.2, ?_, ?_, ?_⟩
        · intro hm
          rw [h3 hm]
          show some (whole c.hostPos c.sig) = some (whole (c.hostPos.toSignature c.sig s) s)
          rw [whole_toSignature _ _ _ h2 hv'.2]
        · intro hm hn
          show whole (c.clientPos.toSignature c.sig s) s = w
          rw [whole_toSignature _ _ _ h2 hv'.2]
          exact h4 hm hn
        · intro x hm hx
          refine ⟨?_, (h5 x hm hx).2⟩
          show whole (c.clientPos.toSignature c.sig s) s = x
          rw [whole_toSignature _ _ _ h2 hv'.2]
          exact (h5 x hm hx).1
  | position p =>
    refine ⟨h1, h2, fun _ => ?_, fun hh => absurd hh (by simp [Clock.apply]), fun _ hh => absurd hh (by simp [Clock.apply])⟩
    subst h1
    rfl
  | playing b =>
    refine ⟨by rw [← h1]; rfl, h2, h3, h4, ?_⟩
    intro x hm hx
    refine ⟨(h5 x hm hx).1, ?_⟩
    have := hj (by intro hh; rw [show hostAfter t h (.playing b) = h from rfl, hh] at hx; cases hx)
    show b = false
    cases b with
    | false => rfl
    | true => exact absurd rfl this

theorem inside_events {k : Nat} : ∀ (es : List Event) (c : Clock) (t : Setting) (w : ℚ) (h : Option ℚ), c.fill = k → Inside c t w h →
    NoJumpStart es → (h ≠ none → Event.playing true ∉ es) →
    Inside (c.frameEvents k es) (es.foldl Setting.after t) w (hostTime t h es) ∧ (c.frameEvents k es).fill = k := by
  intro es
  induction es with
  | nil => intro c t w h hk hi _ _; exact ⟨hi, hk⟩
  | cons e es ih =>
    intro c t w h hk hi hn hh
    rw [hostTime_cons]
    have hadv := (advance_buffer c k).2.1
    apply ih
    · rw [(apply_keeps _ e).2.1, hadv]; omega
    · exact inside_apply (inside_advance hk hi) e (fun hne heq => hh hne (by simp [heq]))
    · rcases hn with hn | hn
      · exact Or.inl (fun p hp => hn p (by simp [hp]))
      · exact Or.inr (fun hp => hn (by simp [hp]))
    · intro hne hp
      by_cases hh0 : h = none
      · subst hh0
        cases e with
        | position p =>
          rcases hn with hn | hn
          · exact hn p (by simp)
          · exact hn (by simp [hp])
        | _ => exact hne rfl
      · exact hh hh0 (by simp [hp])

/-- The clock between frames. -/
structure Between (c : Clock) (t : Setting) (w : ℚ) : Prop where
  setting : c.setting = t
  unit : 0 < c.sig.beatUnit
  must : c.mustApply = false
  time : c.time = w

theorem Between.inside {c : Clock} {t : Setting} {w : ℚ} (hb : Between c t w) : Inside c t w none := by
  refine ⟨hb.setting, hb.unit, fun hh => ?_, fun _ _ => hb.time, fun x _ hx => ?_⟩
  · rw [hb.must] at hh; cases hh
  · cases hx

theorem advance_one {c : Clock} {t : Setting} {w : ℚ} {h : Option ℚ} {k : Nat} (hk : c.fill = k) (hi : Inside c t w h) :
    Between (c.advance (k + 1)) t (h.getD (w + t.rate)) ∧
    (c.advance (k + 1)).position k / (t.sig.beatUnit : ℚ) = h.getD (w + t.rate) ∧
    (∀ j, j ≠ k → (c.advance (k + 1)).position j = c.position j) := by
  obtain ⟨h1, h2, h3, h4, h5⟩ := hi
  subst h1
  have hu : (c.sig.beatUnit : ℚ) ≠ 0 := by exact_mod_cast h2.ne'
  by_cases hp : c.playing = true
  · have hadv : c.advance (k + 1) = c.tick := by
      unfold Clock.advance
      rw [if_pos hp, hk, show k + 1 - k = 1 by omega]
      rfl
    rw [hadv]
    have key : whole (if c.mustApply then c.hostPos else BBT.fromBeats c.sig (c.clientPos.toBeats c.sig + c.beatsPerFrame)) c.sig =
        h.getD (w + c.setting.rate) := by
      by_cases hm : c.mustApply = true
      · rw [if_pos hm, h3 hm]; rfl
      · rw [if_neg hm]
        have hm' : c.mustApply = false := by simpa using hm
        have hn : h = none := by
          cases h with
          | none => rfl
          | some x => rw [(h5 x hm' rfl).2] at hp; cases hp
        rw [hn, whole_eq, toBeats_fromBeats, Option.getD_none, ← h4 hm' hn]
        unfold Clock.time Setting.rate Clock.setting Clock.beatsPerFrame
        simp only [hp, if_true]
        rw [whole_eq]
        field_simp
    refine ⟨⟨rfl, h2, rfl, key⟩, ?_, ?_⟩
    · rw [← key, whole_eq]
      unfold Clock.tick Clock.write
      simp only [hk, if_true]
      rfl
    · intro j hj
      unfold Clock.tick Clock.write
      simp only [hk, hj, if_false]
  · have hp' : c.playing = false := by simpa using hp
    have hadv : c.advance (k + 1) = c.hold (k + 1) := if_neg hp
    rw [hadv]
    have hrate : c.setting.rate = 0 := by
      unfold Setting.rate Clock.setting
      simp [hp']
    have key : whole (if c.mustApply then c.hostPos else c.clientPos) c.sig = h.getD (w + c.setting.rate) := by
      rw [hrate, add_zero]
      by_cases hm : c.mustApply = true
      · rw [if_pos hm, h3 hm]; rfl
      · rw [if_neg hm]
        have hm' : c.mustApply = false := by simpa using hm
        cases hh : h with
        | none => exact h4 hm' hh
        | some x => exact (h5 x hm' hh).1
    refine ⟨⟨rfl, h2, rfl, key⟩, ?_, ?_⟩
    · rw [← key, whole_eq]
      unfold Clock.hold
      simp only [hk]
      rw [if_pos (by omega)]
      rfl
    · intro j hj
      unfold Clock.hold
      simp only [hk]
      rw [if_neg (by omega)]

theorem settingAt_eq (t : Setting) (evs : Nat → List Event) (k : Nat) :
    settingAt t evs k = (evs k).foldl Setting.after (settingBefore t evs k) := by
  cases k <;> rfl

theorem frameEvents_position (c : Clock) (k : Nat) (es : List Event) (hk : c.fill = k) : (c.frameEvents k es).position = c.position := by
  induction es generalizing c with
  | nil => rfl
  | cons e es ih =>
    simp only [Clock.frameEvents]
    rw [ih _ (by rw [(apply_keeps _ e).2.1, (advance_buffer c k).2.1]; omega)]
    have h1 : ((c.advance k).apply e).position = (c.advance k).position := by
      cases e with
      | signature s => simp only [Clock.apply]; split <;> [rfl; (split <;> rfl)]
      | _ => rfl
    rw [h1, advance_here c k hk]
    split
    · rfl
    · unfold Clock.hold
      simp only [hk]
      funext j
      rw [if_neg (by omega)]

theorem upTo_spec (c : Clock) (t : Setting) (w : ℚ) (evs : Nat → List Event) (h0 : c.fill = 0) (hb : Between c t w)
    (hn : ∀ k, NoJumpStart (evs k)) (n : Nat) :
    Between (c.upTo evs n) (settingBefore t evs n) (timeBefore t evs w n) ∧ (c.upTo evs n).fill = n ∧
    ∀ k, k < n → (c.upTo evs n).position k / ((settingAt t evs k).sig.beatUnit : ℚ) = timeBefore t evs w (k + 1) := by
  induction n with
  | zero =>
    have hin : Inside c t w none := hb.inside
    have hi := inside_advance h0 hin
    have hmust : (c.advance 0).mustApply = false := by
      rw [advance_here c 0 h0]
      split
      · exact hb.must
      · rfl
    refine ⟨⟨hi.setting, hi.unit, hmust, hi.none_ hmust rfl⟩, ?_, fun k hk => absurd hk (by omega)⟩
    show (c.advance 0).fill = 0
    rw [(advance_buffer c 0).2.1]; omega
  | succ n ih =>
    obtain ⟨hb', hf, hpos⟩ := ih
    have hin : Inside (c.upTo evs n) (settingBefore t evs n) (timeBefore t evs w n) none := hb'.inside
    obtain ⟨hi2, hf2⟩ := inside_events (evs n) _ _ _ none hf hin (hn n) (fun hh => absurd rfl hh)
    rw [← settingAt_eq] at hi2
    obtain ⟨g1, g2, g3⟩ := advance_one hf2 hi2
    refine ⟨g1, ?_, ?_⟩
    · show (((c.upTo evs n).frameEvents n (evs n)).advance (n + 1)).fill = n + 1
      rw [(advance_buffer _ _).2.1, hf2]; omega
    · intro k hk
      by_cases hkn : k = n
      · subst hkn; exact g2
      · show (((c.upTo evs n).frameEvents n (evs n)).advance (n + 1)).position k / _ = _
        rw [g3 k hkn, frameEvents_position _ n _ hf]
        exact hpos k (by omega)

/-! ### C34 -/

/-- C34: for a cycle of any length with any events at their frames (signatures valid at start; no frame with both a position
and a start, see `position_and_start_violated`; host positions come with their frame), the position reported at each frame
and the final time are those of a clock that advances by the tempo in force at each frame, or jumps to the position given by
the host at that frame. -/
theorem clock_cycle_partial (c : Clock) (evs : Nat → List Event) (n : Nat) (hn : n ≤ c.bufferSize) (hu : 0 < c.sig.beatUnit)
    (hm : c.mustApply = false) (hj : ∀ k, NoJumpStart (evs k)) :
    ∃ c', c.cycle n (inOrder evs n) = some c' ∧
      (∀ k, k < n → c'.position k / ((settingAt c.setting evs k).sig.beatUnit : ℚ) = timeBefore c.setting evs c.time (k + 1)) ∧
      c'.time = timeBefore c.setting evs c.time n ∧ c'.setting = settingBefore c.setting evs n ∧
      0 < c'.sig.beatUnit ∧ c'.mustApply = false ∧ c'.bufferSize = c.bufferSize := by
  obtain ⟨c1, h1, h2, h3, h4⟩ := inOrder_core (c.beginCycle n) evs n hn
  have hfill : (c.beginCycle n).core.fill = 0 := rfl
  have hf := fillTo_core c1 n (by rw [h3]; exact hn)
  rw [Option.map_eq_some_iff] at hf
  obtain ⟨c2, g1, g2⟩ := hf
  rw [h2, received_upTo _ evs hfill] at g2
  have hb : Between (c.beginCycle n).core c.setting c.time := ⟨rfl, hu, hm, rfl⟩
  obtain ⟨u1, u2, u3⟩ := upTo_spec _ _ _ evs hfill hb hj n
  rw [← g2] at u1 u3
  refine ⟨c2, ?_, u3, u1.time, u1.setting, u1.unit, u1.must, ?_⟩
  · unfold Clock.cycle Clock.endCycle
    rw [h1]
    show c1.fillTo c1.frames = _
    rw [h4]; exact g1
  · rw [(fillTo_same g1).1.buffer, h3]; rfl

theorem hostTime_none (t : Setting) (es : List Event) (h : ∀ p, Event.position p ∉ es) (x : Option ℚ) : hostTime t x es = x := by
  induction es generalizing t with
  | nil => rfl
  | cons e es ih =>
    rw [hostTime_cons]
    cases e with
    | position p => exact absurd (List.mem_cons_self) (h p)
    | _ => exact ih _ (fun p hp => h p (by simp [hp]))

theorem timeBefore_sum (t : Setting) (w : ℚ) (evs : Nat → List Event) (hp : ∀ k p, Event.position p ∉ evs k) (n : Nat) :
    timeBefore t evs w n = w + ∑ k ∈ Finset.range n, (settingAt t evs k).rate := by
  induction n with
  | zero => simp [timeBefore]
  | succ n ih =>
    rw [timeBefore, hostTime_none _ _ (hp n), Option.getD_none, ih, Finset.sum_range_succ]
    ring

/-- C34: without host positions, the time at the end of the cycle is the time at its start plus the sum, over its frames, of
the duration of the frame at the tempo and signature in force. -/
theorem clock_sum_partial (c : Clock) (evs : Nat → List Event) (n : Nat) (hn : n ≤ c.bufferSize) (hu : 0 < c.sig.beatUnit)
    (hm : c.mustApply = false) (hp : ∀ k p, Event.position p ∉ evs k) :
    ∃ c', c.cycle n (inOrder evs n) = some c' ∧
      c'.time = c.time + ∑ k ∈ Finset.range n, (settingAt c.setting evs k).rate := by
  obtain ⟨c', h1, _, h3, _⟩ := clock_cycle_partial c evs n hn hu hm (fun k => Or.inl (hp k))
  exact ⟨c', h1, h3.trans (timeBefore_sum _ _ evs hp n)⟩

/-- C34 as the synth uses the clock: events of any delays up to the frames of the previous cycle, then a block: they all
apply from the start of the block, and time advances by exactly the block. -/
theorem clock_block_partial (c : Clock) (evs : List (Nat × Event)) (n : Nat) (hn : n ≤ c.bufferSize) (hu : 0 < c.sig.beatUnit)
    (hm : c.mustApply = false) (hd : ∀ e ∈ evs, e.1 ≤ c.fill) (hp : ∀ e ∈ evs, ∀ p, e.2 ≠ .position p) :
    ∃ c', c.block evs n = some c' ∧
      c'.time = c.time + n * ((evs.map (·.2)).foldl Setting.after c.setting).rate ∧
      c'.setting = (evs.map (·.2)).foldl Setting.after c.setting ∧ c'.fill = n ∧ c'.mustApply = false ∧ 0 < c'.sig.beatUnit ∧
      c'.bufferSize = c.bufferSize := by
  have key : ∀ (evs : List (Nat × Event)) (c : Clock), 0 < c.sig.beatUnit → c.mustApply = false → (∀ e ∈ evs, e.1 ≤ c.fill) →
      (∀ e ∈ evs, ∀ p, e.2 ≠ .position p) →
      ∃ c', c.events evs = some c' ∧ Between c' ((evs.map (·.2)).foldl Setting.after c.setting) c.time ∧ c'.bufferSize = c.bufferSize := by
    intro evs
    induction evs with
    | nil => intro c hu hm _ _; exact ⟨c, rfl, ⟨rfl, hu, hm, rfl⟩, rfl⟩
    | cons x evs ih =>
      intro c hu hm hd hp
      obtain ⟨d, e⟩ := x
      have hdc := hd (d, e) (by simp)
      simp only at hdc
      obtain ⟨c1, h1, h1b⟩ : ∃ c1, c.fillTo d = some c1 ∧ Inside c1 c.setting c.time none ∧ c1.mustApply = false ∧
          c1.fill = c.fill ∧ c1.bufferSize = c.bufferSize := by
        unfold Clock.fillTo
        rw [if_neg (by omega)]
        refine ⟨_, rfl, ?_⟩
        split
        · rw [show d - (c.fillPerBar d).fill = 0 from Nat.sub_eq_zero_of_le hdc]
          exact ⟨⟨rfl, hu, fun hh => absurd hh (by show ¬ c.mustApply = true; rw [hm]; simp), fun _ _ => rfl, fun x _ hx => by cases hx⟩, hm,
            rfl, rfl⟩
        · refine ⟨⟨rfl, hu, fun hh => absurd hh (by simp [Clock.hold]), fun _ _ => ?_, fun x _ hx => by cases hx⟩, rfl, ?_, rfl⟩
          · show whole (if c.mustApply = true then c.hostPos else c.clientPos) c.sig = c.time
            rw [hm, if_neg (by simp)]; rfl
          · show max c.fill d = c.fill
            omega
      obtain ⟨i1, i2, i3, i4⟩ := h1b
      have ia := inside_apply i1 e (fun hh => absurd rfl hh)
      have hmust : (c1.apply e).mustApply = false := by
        cases e with
        | signature s => simp only [Clock.apply]; split <;> [exact i2; (split <;> exact i2)]
        | position p => exact absurd rfl (hp (d, .position p) (by simp) p)
        | _ => exact i2
      have hhost : hostAfter c.setting none e = none := by
        cases e with
        | position p => exact absurd rfl (hp (d, .position p) (by simp) p)
        | _ => rfl
      rw [hhost] at ia
      obtain ⟨c2, g1, g2, g3⟩ := ih (c1.apply e) ia.unit hmust (fun e' he' => by
        have := hd e' (by simp [he'])
        rw [(apply_keeps c1 e).2.1, i3]; exact this) (fun e' he' => hp e' (by simp [he']))
      refine ⟨c2, ?_, ?_, ?_⟩
      · show (c.event d e).bind _ = _
        unfold Clock.event
        rw [h1]; exact g1
      · rw [ia.setting, ia.none_ hmust rfl] at g2
        exact g2
      · rw [g3, (apply_keeps c1 e).1, i4]
  obtain ⟨c1, h1, h2, h3⟩ := key evs c hu hm hd hp
  obtain ⟨c2, g1, g2⟩ := clock_sum_partial c1 (fun _ => []) n (by omega) h2.unit h2.must (by simp)
  obtain ⟨c3, k1, _, _, k4, k5, k6, k7⟩ := clock_cycle_partial c1 (fun _ => []) n (by omega) h2.unit h2.must (fun _ => Or.inl (by simp))
  have h23 : c2 = c3 := by rw [g1] at k1; exact Option.some.inj k1
  subst h23
  have hno : ∀ n, inOrder (fun _ => []) n = [] := by
    intro n
    induction n with
    | zero => rfl
    | succ n ih => rw [inOrder, ih]; rfl
  have hset : ∀ k, settingAt c1.setting (fun _ => []) k = c1.setting := by
    intro k
    induction k with
    | zero => rfl
    | succ k ih => exact ih
  have hsetb : settingBefore c1.setting (fun _ => []) n = c1.setting := by
    cases n with
    | zero => rfl
    | succ k => exact hset k
  rw [hno] at g1
  refine ⟨c2, ?_, ?_, ?_, ?_, k6, k5, by omega⟩
  · unfold Clock.block
    rw [h1]; exact g1
  · rw [g2, h2.time]
    rw [Finset.sum_congr rfl (fun k _ => by rw [hset k, h2.setting]), Finset.sum_const, Finset.card_range, nsmul_eq_mul]
  · rw [k4, hsetb, h2.setting]
  · have : (c1.beginCycle n).fillTo n = some c2 := g1
    rw [(fillTo_same this).2]
    show max 0 n = n
    omega

/-- A clock at 1 kHz. -/
def demo : Clock := { samplePeriod := 1 / 1000, bufferSize := 1024, playing := true }

/-- Tempo and signature changes inside a cycle. -/
example : ((demo.cycle 100 (inOrder (fun k => if k = 10 then [.tempo (1/4)] else if k = 60 then [.signature ⟨6, 8⟩] else []) 100)).map
    fun c => (c.time, c.position 99)) = some (10 * (2/1000)/4 + 50 * (4/1000)/4 + 40 * (4/1000)/8, 8 * (10 * (2/1000)/4 + 50 * (4/1000)/4 + 40 * (4/1000)/8)) := by
  decide +kernel

/-- C34 fails in the synth: the events are given before the cycle begins, so that an event whose delay exceeds the previous
block advances the clock for frames that are counted again: the time after blocks of 64 and 128 frames is that of more than
192 frames, and in the first block of 64 frames, an event with delay 32 does the same. -/
theorem clock_block_violated :
    (((demo.block [] 64).bind (·.block [(100, .tempo (1/2))] 128)).map fun c => decide (c.time = 228 * (2/1000) / 4)) = some true ∧
    ((demo.block [(32, .tempo (1/2))] 64).map fun c => decide (c.time = 96 * (2/1000) / 4)) = some true := by
  decide +kernel

/-- C34 fails: a position given at the frame where the clock starts is one frame late. -/
theorem position_and_start_violated :
    ((({ demo with playing := false } : Clock).cycle 10 [(0, .position ⟨1, 0⟩), (0, .playing true)]).map fun c => decide (c.position 0 = 4 + 2/1000)) =
      some true ∧
    ((demo.cycle 10 [(0, .position ⟨1, 0⟩)]).map fun c => decide (c.position 0 = 4)) = some true := by
  decide +kernel

/-- A delay beyond the buffers writes outside of them. -/
theorem late_event_violated : (demo.events [(1025, .tempo (1/2))]).isNone = true := by decide +kernel

end Verif.BeatClock
