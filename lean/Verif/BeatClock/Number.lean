import Verif.BeatClock.Props

/-! # The number of the beat (C139) -/
namespace Verif.BeatClock

/-- Successive blocks, each with the events before it. -/
def Clock.blocks (c : Clock) : List (List (Nat × Event) × Nat) → Option Clock
  | [] => some c
  | (evs, n) :: rest => (c.block evs n).bind (·.blocks rest)

/-- The two buffers agree. -/
def Agrees (c : Clock) : Prop := ∀ j, c.number j = beatNumber (c.position j)

theorem tick_agrees {c : Clock} (h : Agrees c) : Agrees c.tick := by
  intro j
  show (if j = c.fill then _ else c.number j) = beatNumber (if j = c.fill then _ else c.position j)
  split
  · rfl
  · exact h j

theorem ticks_agrees (n : Nat) : ∀ {c : Clock}, Agrees c → Agrees (c.ticks n) := by
  induction n with
  | zero => intro c h; exact h
  | succ n ih => intro c h; exact ih (tick_agrees h)

theorem hold_agrees {c : Clock} (h : Agrees c) (d : Nat) : Agrees (c.hold d) := by
  intro j
  show (if c.fill ≤ j ∧ j < d then _ else c.number j) = beatNumber (if c.fill ≤ j ∧ j < d then _ else c.position j)
  split
  · rfl
  · exact h j

theorem fillTo_agrees {c c' : Clock} (h : Agrees c) {d : Nat} (hc : c.fillTo d = some c') : Agrees c' := by
  unfold Clock.fillTo at hc
  split at hc
  · cases hc
  · have h0 : Agrees (c.fillPerBar d) := h
    rw [← Option.some.inj hc]
    split
    · exact ticks_agrees _ h0
    · exact hold_agrees h0 d

theorem events_agrees (evs : List (Nat × Event)) : ∀ {c c' : Clock}, Agrees c → c.events evs = some c' → Agrees c' := by
  induction evs with
  | nil => intro c c' h hc; rw [← Option.some.inj hc]; exact h
  | cons e rest ih =>
    intro c c' h hc
    obtain ⟨d, e⟩ := e
    unfold Clock.events Clock.event at hc
    cases hf : c.fillTo d with
    | none => rw [hf] at hc; cases hc
    | some c1 =>
      rw [hf] at hc
      have h1 := fillTo_agrees h hf
      have h2 : Agrees (c1.apply e) := by
        unfold Clock.apply
        split
        · exact h1
        · split
          · exact h1
          · split
            · exact h1
            · exact h1
        · exact h1
        · exact h1
      exact ih h2 hc

theorem block_agrees {c c' : Clock} (h : Agrees c) {evs : List (Nat × Event)} {n : Nat} (hc : c.block evs n = some c') : Agrees c' := by
  unfold Clock.block at hc
  cases he : c.events evs with
  | none => rw [he] at hc; cases hc
  | some c1 =>
    rw [he] at hc
    have h1 : Agrees c1 := events_agrees evs h he
    exact fillTo_agrees (c := c1.beginCycle n) h1 hc

theorem blocks_agrees (bs : List (List (Nat × Event) × Nat)) : ∀ {c c' : Clock}, Agrees c → c.blocks bs = some c' → Agrees c' := by
  induction bs with
  | nil => intro c c' h hc; rw [← Option.some.inj hc]; exact h
  | cons b rest ih =>
    intro c c' h hc
    obtain ⟨evs, n⟩ := b
    unfold Clock.blocks at hc
    cases hb : c.block evs n with
    | none => rw [hb] at hc; cases hc
    | some c1 =>
      rw [hb] at hc
      exact ih (block_agrees h hb) hc

theorem beatNumber_nonneg {x : ℚ} (h : 0 ≤ x) : beatNumber x = ⌊x + 1 / 131072⌋ := by
  have hd : 0 ≤ x * 65536 := by positivity
  have hq : (0 : ℚ) ≤ 1 / 2 + |x * 65536| := by positivity
  have hfl : 0 ≤ ⌊1 / 2 + |x * 65536|⌋ := Int.floor_nonneg.mpr hq
  unfold beatNumber trunc
  simp only [if_pos hd, if_pos hq]
  rw [Int.tdiv_eq_ediv_of_nonneg hfl, abs_of_nonneg hd]
  rw [show x + 1 / 131072 = (1 / 2 + x * 65536) / ((65536 : ℕ) : ℚ) by push_cast; ring]
  exact (Int.floor_div_natCast _ _).symm

theorem beatNumber_neg (x : ℚ) : beatNumber (-x) = -beatNumber x := by
  have tr : ∀ y : ℚ, trunc (-y) = -trunc y := by
    intro y
    unfold trunc
    rcases lt_trichotomy y 0 with h | h | h
    · rw [if_pos (by linarith), if_neg (not_le.mpr h), Int.floor_neg]
    · subst h; simp
    · rw [if_neg (by linarith), if_pos (le_of_lt h), Int.ceil_neg]
  rcases lt_trichotomy x 0 with h | h | h
  · unfold beatNumber
    have h1 : ¬ (0 ≤ x * 65536) := by linarith
    have h2 : 0 ≤ -x * 65536 := by linarith
    simp only [if_neg h1, if_pos h2]
    rw [show -x * 65536 = -(x * 65536) by ring, abs_neg, tr, Int.neg_tdiv, neg_neg]
  · subst h; decide +kernel
  · unfold beatNumber
    have h1 : 0 ≤ x * 65536 := by linarith
    have h2 : ¬ (0 ≤ -x * 65536) := by linarith
    simp only [if_pos h1, if_neg h2]
    rw [show -x * 65536 = -(x * 65536) by ring, abs_neg, tr, Int.neg_tdiv]

/-- **C139, beat numbers.** After every history of blocks and events: where the position in beats is not negative, the number of the beat is
the last beat reached, where a beat counts as reached from 1/131072 beat before it on. -/
theorem beat_number (period : ℚ) (size : Nat) (bs : List (List (Nat × Event) × Nat)) (c : Clock)
    (h : Clock.blocks { samplePeriod := period, bufferSize := size } bs = some c) (j : Nat) (hp : 0 ≤ c.position j) :
    c.number j = ⌊c.position j + 1 / 131072⌋ := by
  have h0 : Agrees { samplePeriod := period, bufferSize := size } := by
    intro j
    show (0 : Int) = beatNumber 0
    decide +kernel
  rw [blocks_agrees bs h0 h j, beatNumber_nonneg hp]

/-- **C139, no beat is missed.** An error of less than 1/131072 beat in the position never leaves the number a beat behind, and the number
changes nowhere else than within this distance of a beat. -/
theorem beat_number_robust (period : ℚ) (size : Nat) (bs : List (List (Nat × Event) × Nat)) (c : Clock)
    (h : Clock.blocks { samplePeriod := period, bufferSize := size } bs = some c) (j : Nat) (hp : 0 ≤ c.position j) (x : ℚ) (n : Int)
    (he : |c.position j - x| < 1 / 131072) (hn : n ≤ x) (hl : x < n + 1 - 1 / 65536) : c.number j = n := by
  rw [beat_number period size bs c h j hp, Int.floor_eq_iff]
  rw [abs_lt] at he
  constructor
  · linarith [he.1]
  · norm_num at hl he ⊢
    linarith [he.2]

/-- A position a little before beat 3, and one a little after. -/
example : beatNumber (3 - 1 / 200000) = 3 ∧ beatNumber (3 + 1 / 200000) = 3 ∧ beatNumber (3 - 1 / 100000) = 2 := by decide +kernel

/-- C139 is violated before the start of the song: from beat -1 to beat 1 there is no change of the number, so that the beat 0 is missed. -/
theorem negative_beat_violated : ∀ x : ℚ, -1 + 1 / 131072 < x → x < 1 - 1 / 131072 → beatNumber x = 0 := by
  have key : ∀ x : ℚ, 0 ≤ x → x < 1 - 1 / 131072 → beatNumber x = 0 := by
    intro x h0 h1
    rw [beatNumber_nonneg h0, Int.floor_eq_zero_iff]
    exact ⟨by linarith, by linarith⟩
  intro x h0 h1
  rcases le_total 0 x with h | h
  · exact key x h h1
  · have := beatNumber_neg (-x)
    rw [neg_neg] at this
    rw [this, key (-x) (by linarith) (by linarith)]
    rfl

end Verif.BeatClock
