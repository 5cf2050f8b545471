import Verif.MidiValue.Props
import Mathlib.Tactic.IntervalCases

/-!
C125: random alternatives.  `noteOnDispatch`, `noteOffDispatch` and `ccDispatch` draw one number from 0 to 1 per event
(Synth.cpp:1332, 1355, 1433) and hand it to every region.
-/
namespace Verif.MidiValue

open Verif.Float32 Verif.Range

/-- `lorand` and `hirand` (Region.cpp:370-375) with the numbers written: `Default::loNormalized`, `Default::hiNormalized`
(Defaults.cpp:67-68) scale nothing and are permissive, so that the numbers are read as the nearest `float`. -/
def randomRegion (r : Layer.Region) (lo hi : ℚ) : Layer.Region :=
  { r with randRange := ⟨Setting.read ⟨0, permissive 0 1, {}⟩ (fl lo), Setting.read ⟨1, permissive 0 1, {}⟩ (fl hi)⟩ }

lemma randomRegion_range (r : Layer.Region) (lo hi : ℚ) : (randomRegion r lo hi).randRange = ⟨fl lo, fl hi⟩ := by
  simp [randomRegion, read_eq, normalizeInput]

/-- The random condition of a region between two numbers. -/
lemma randOk_iff (r : Layer.Region) (lo hi : ℚ) (x : ℚ) (hlt : fl lo < fl hi) :
    Layer.randOk (randomRegion r lo hi) x = true ↔ (fl lo ≤ x ∧ x < fl hi) ∨ (1 ≤ x ∧ 1 ≤ fl hi) := by
  unfold Layer.randOk
  rw [randomRegion_range]
  simp [contains, isValid, hlt.le]

/-- **Random alternatives: of regions whose `lorand` and `hirand` share 0 to 1 out among themselves, every number drawn meets
the random condition of exactly one**, the number 1 included.  `cut i` is the `lorand` of region `i` and the `hirand` of the
region before it; the numbers may be any, as long as they stay different as `float`s. -/
theorem one_random (base : ℕ → Layer.Region) (cut : ℕ → ℚ) (n : ℕ) (hmono : ∀ i j, i < j → j ≤ n → fl (cut i) < fl (cut j))
    (h0 : cut 0 = 0) (hn : cut n = 1) (x : ℚ) (hx0 : 0 ≤ x) (hx1 : x ≤ 1) :
    ∃! i : ℕ, i < n ∧ Layer.randOk (randomRegion (base i) (cut i) (cut (i + 1))) x = true := by
  have e0 : fl (cut 0) = 0 := by rw [h0, fl_zero]
  have e1 : fl (cut n) = 1 := by rw [hn, fl_one]
  have hn0 : 0 < n := by
    rcases Nat.eq_zero_or_pos n with h | h
    · subst h; rw [e0] at e1; norm_num at e1
    · exact h
  have top : ∀ i, i < n → (1 ≤ fl (cut (i + 1)) ↔ i + 1 = n) := by
    intro i hi
    constructor
    · intro h
      by_contra hc
      have := hmono (i + 1) n (by omega) le_rfl
      rw [e1] at this; linarith
    · intro h; rw [h, e1]
  have cond : ∀ i, i < n → (Layer.randOk (randomRegion (base i) (cut i) (cut (i + 1))) x = true ↔
      (fl (cut i) ≤ x ∧ x < fl (cut (i + 1))) ∨ (x = 1 ∧ i + 1 = n)) := by
    intro i hi
    rw [randOk_iff _ _ _ _ (hmono i (i + 1) (by omega) (by omega)), top i hi]
    have : 1 ≤ x ↔ x = 1 := ⟨fun h => le_antisymm hx1 h, fun h => h.ge⟩
    rw [this]
  rcases lt_or_eq_of_le hx1 with hx | hx
  · classical
    have hex : ∃ j, x < fl (cut j) := ⟨n, by rw [e1]; exact hx⟩
    have hle : Nat.find hex ≤ n := Nat.find_min' hex (by rw [e1]; exact hx)
    have hpos : Nat.find hex ≠ 0 := by
      intro h
      have := Nat.find_spec hex
      rw [h, e0] at this; linarith
    obtain ⟨i, hi⟩ := Nat.exists_eq_succ_of_ne_zero hpos
    have hi' : Nat.find hex = i + 1 := hi
    have hs := Nat.find_spec hex
    rw [hi'] at hs
    have hm := Nat.find_min hex (show i < Nat.find hex by omega)
    push Not at hm
    refine ⟨i, ⟨by omega, (cond i (by omega)).mpr (.inl ⟨hm, hs⟩)⟩, ?_⟩
    rintro j ⟨hj, hj'⟩
    rcases (cond j hj).mp hj' with ⟨a, b⟩ | ⟨a, -⟩
    · rcases lt_trichotomy i j with h | h | h
      · rcases Nat.lt_or_eq_of_le (show i + 1 ≤ j by omega) with h' | h'
        · have := hmono (i + 1) j h' (by omega); linarith
        · rw [h'] at hs; linarith
      · exact h.symm
      · have := Nat.find_min' hex b
        omega
    · linarith
  · refine ⟨n - 1, ⟨by omega, (cond (n - 1) (by omega)).mpr (.inr ⟨hx, by omega⟩)⟩, ?_⟩
    rintro j ⟨hj, hj'⟩
    rcases (cond j hj).mp hj' with ⟨-, b⟩ | ⟨-, b⟩
    · have : fl (cut (j + 1)) ≤ 1 := by
        rcases Nat.lt_or_eq_of_le (show j + 1 ≤ n by omega) with h | h
        · have := hmono (j + 1) n h le_rfl; rw [e1] at this; exact this.le
        · rw [h, e1]
      linarith
    · omega

/-- Three alternatives with the rounded thirds of a written instrument. -/
example : ∀ i j, i < j → j ≤ 3 →
    fl ((fun i : ℕ => if i = 0 then 0 else if i = 1 then 333 / 1000 else if i = 2 then 667 / 1000 else 1 : ℕ → ℚ) i) <
      fl ((fun i : ℕ => if i = 0 then 0 else if i = 1 then 333 / 1000 else if i = 2 then 667 / 1000 else 1 : ℕ → ℚ) j) := by
  intro i j hij hj
  have : i < 3 := by omega
  interval_cases i <;> interval_cases j <;> first | omega | decide +kernel

/-- The number drawn is one condition among the others. -/
lemma note_random (r : Layer.Region) (lo hi : ℚ) (m : Midi.State) (s : Layer.State) (note : ℤ) (vel x : ℚ)
    (h : Layer.randOk (randomRegion r 0 1) x = true) :
    (Layer.registerNoteOn (randomRegion r lo hi) m s note vel x).2 =
      ((Layer.registerNoteOn (randomRegion r 0 1) m s note vel x).2 && Layer.randOk (randomRegion r lo hi) x) := by
  have hs : ∀ lo hi, Layer.sequenceStep (randomRegion r lo hi) s = Layer.sequenceStep r s := fun _ _ => rfl
  unfold Layer.registerNoteOn
  simp only [h, hs]
  change (if _ then _ else if _ then _ else _ : Layer.State × Bool).2 = ((if _ then _ else if _ then _ else _ : Layer.State × Bool).2 && _)
  simp only [show ∀ lo hi, (randomRegion r lo hi).keyRange = r.keyRange from fun _ _ => rfl,
    show ∀ lo hi, (randomRegion r lo hi).polyAftertouchRange = r.polyAftertouchRange from fun _ _ => rfl,
    show ∀ lo hi, (randomRegion r lo hi).triggerOnNote = r.triggerOnNote from fun _ _ => rfl,
    show ∀ lo hi, (randomRegion r lo hi).velocityPrevious = r.velocityPrevious from fun _ _ => rfl,
    show ∀ lo hi, (randomRegion r lo hi).velocityRange = r.velocityRange from fun _ _ => rfl,
    show ∀ lo hi, (randomRegion r lo hi).trigger = r.trigger from fun _ _ => rfl]
  split_ifs <;> simp [Bool.and_comm, Bool.and_left_comm, Bool.and_assoc]

/-- **A note which is answered by a region without `lorand` and `hirand` is answered by exactly one of the alternatives made of
it**, whatever number is drawn. -/
theorem one_alternative (r : Layer.Region) (cut : ℕ → ℚ) (n : ℕ)
    (hmono : ∀ i j, i < j → j ≤ n → fl (cut i) < fl (cut j)) (h0 : cut 0 = 0) (hn : cut n = 1) (m : Midi.State)
    (s : Layer.State) (note : ℤ) (vel x : ℚ) (hx0 : 0 ≤ x) (hx1 : x ≤ 1)
    (h : (Layer.registerNoteOn (randomRegion r 0 1) m s note vel x).2 = true) :
    ∃! i : ℕ, i < n ∧ (Layer.registerNoteOn (randomRegion r (cut i) (cut (i + 1))) m s note vel x).2 = true := by
  have hw : Layer.randOk (randomRegion r 0 1) x = true := by
    have : fl 0 < fl 1 := by rw [fl_zero, fl_one]; norm_num
    rw [randOk_iff _ _ _ _ this, fl_zero, fl_one]
    rcases lt_or_eq_of_le hx1 with h | h
    · exact .inl ⟨hx0, h⟩
    · exact .inr ⟨h.ge, le_rfl⟩
  simp only [fun i => note_random r (cut i) (cut (i + 1)) m s note vel x hw, h, Bool.true_and]
  exact one_random (fun _ => r) cut n hmono h0 hn x hx0 hx1

example : (Layer.registerNoteOn (randomRegion {} 0 1) Midi.init {} 60 (normalize7Bits 100) 1).2 = true ∧
    (Layer.registerNoteOn (randomRegion {} 0 (1 / 2)) Midi.init {} 60 (normalize7Bits 100) 1).2 = false ∧
    (Layer.registerNoteOn (randomRegion {} (1 / 2) 1) Midi.init {} 60 (normalize7Bits 100) 1).2 = true := by
  decide +kernel

end Verif.MidiValue
