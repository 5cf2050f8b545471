import Verif.Wavetable.Lemmas
import Mathlib.Algebra.Order.BigOperators.Group.List

/-!
# Wavetable oscillators

C107: an oscillator reads its waveform, repeated without end, and nothing else, whatever the pitch does.
C108: its pitch is exact, and cutting into blocks does not matter.
-/
namespace Verif.Wavetable

open Real

/-! ### Specification -/

/-- What the theorems need to know about rounding: it keeps the order, and the numbers that matter are floats. -/
structure Rounds (r : ℝ → ℝ) (size : ℕ) : Prop where
  mono : Monotone r
  zero : r 0 = 0
  one : r 1 = 1
  negOne : r (-1) = -1
  size : r size = size
  big : r (2 ^ 31 - 128) = 2 ^ 31 - 128
  negBig : r (-2 ^ 31) = -2 ^ 31

theorem rounds_exact (size : ℕ) : Rounds id size :=
  ⟨monotone_id, rfl, rfl, rfl, rfl, rfl, rfl⟩

/-- The tables are waveforms that repeat without end: `wave m` is one period of table `m`. -/
def Repeats (w : Multi) (wave : ℕ → ℕ → ℝ) : Prop :=
  ∀ m, m < 24 → ∀ i : ℤ, -4 ≤ i → i < w.size + 4 → w.get m i = some (wave m (i % (w.size : ℤ)).toNat)

/-- Interpolation of a sequence without end at `i + c`. -/
noncomputable def between (v : ℤ → ℝ) (i : ℤ) (c : ℝ) : Interpolator → ℝ
  | .nearest => v (if c > 1 / 2 then i + 1 else i)
  | .linear => v i * (1 - c) + v (i + 1) * c
  | .hermite => hermite3 (-1 - c) * v (i - 1) + hermite3 (0 - c) * v i + hermite3 (1 - c) * v (i + 1) +
      hermite3 (2 - c) * v (i + 2)

/-- The sample to be heard: the waveforms for the frequency, repeated without end, at a position in samples. -/
noncomputable def heard (size : ℕ) (wave : ℕ → ℕ → ℝ) (quality : ℤ) (f position : ℝ) : ℝ :=
  let v (m : ℕ) (i : ℤ) : ℝ := wave m (i % (size : ℤ)).toNat
  let at' (m : ℕ) (how : Interpolator) : ℝ := between (v m) ⌊position⌋ (position - ⌊position⌋) how
  if quality ≤ 0 then at' (tableFor f) .nearest
  else if quality = 1 then at' (tableFor f) .linear
  else if quality = 2 then at' (tableFor f) .hermite
  else (1 - (pairFor f).2.2) * at' (pairFor f).1 .hermite + (pairFor f).2.2 * at' (pairFor f).2.1 .hermite

/-- What a frame adds to the phase, in periods. -/
noncomputable def increment (r : ℝ → ℝ) (interval : ℝ) (fd : ℝ × ℝ) : ℝ := r (fd.1 * r (fd.2 * interval))

/-- An increment after which the phase still fits an integer. -/
def Fits (inc : ℝ) : Prop := -2 ^ 31 ≤ inc ∧ inc ≤ 2 ^ 31 - 129

/-! ### Lemmas -/

/-- `fillExtra` makes the tables repeat. -/
theorem fillExtra_repeats (w : Multi) (hs : 0 < w.size) :
    Repeats (fillExtra w) (fun m i => w.data (tableStart w.size m + i)) :=
  fun m hm i h h' => fillExtra_get w hs m hm i h h'

theorem wrap_some {r : ℝ → ℝ} {size : ℕ} (hr : Rounds r size) {phase inc : ℝ} (h0 : 0 ≤ phase) (h1 : phase ≤ 1)
    (hi : Fits inc) : ∃ p, incrementAndWrap r phase inc = some p ∧ 0 ≤ p ∧ p ≤ 1 := by
  obtain ⟨hl, hu⟩ := hi
  have hp1 : r (phase + inc) ≤ 2 ^ 31 - 128 := by
    rw [← hr.big]; exact hr.mono (by linarith)
  have hp0 : -2 ^ 31 ≤ r (phase + inc) := by
    rw [← hr.negBig]; exact hr.mono (by linarith)
  have hint : toInt (r (phase + inc)) = some (trunc (r (phase + inc))) := by
    unfold toInt; exact if_pos ⟨by linarith, by linarith⟩
  have ht := trunc_rest (r (phase + inc))
  set p := r (phase + inc)
  refine ⟨if r (p - trunc p) < 0 then r (r (p - trunc p) + 1) else r (p - trunc p), ?_, ?_, ?_⟩
  · unfold incrementAndWrap
    simp only [show r (phase + inc) = p from rfl, hint, Option.bind_eq_bind, Option.bind_some]
    rfl
  · split
    · rename_i hq
      have : -1 ≤ r (p - trunc p) := by rw [← hr.negOne]; exact hr.mono ht.1.le
      rw [← hr.zero]; exact hr.mono (by linarith)
    · rename_i hq; exact not_lt.mp hq
  · split
    · rename_i hq
      rw [← hr.one]; exact hr.mono (by rw [hr.one]; linarith)
    · rw [← hr.one]; exact hr.mono ht.2.le

theorem interpolate_some {v : ℤ → Option ℝ} {u : ℤ → ℝ} {i : ℤ} {c : ℝ}
    (h : ∀ k : ℤ, -1 ≤ k → k ≤ 2 → v k = some (u (i + k))) (how : Interpolator) :
    interpolate v c how = some (between u i c how) := by
  have h0 := h 0 (by norm_num) (by norm_num)
  have h1 := h 1 (by norm_num) (by norm_num)
  have h2 := h 2 (by norm_num) (by norm_num)
  have h3 := h (-1) (by norm_num) (by norm_num)
  rw [Int.add_zero] at h0
  cases how
  · change v (if c > 1 / 2 then 1 else 0) = some (u (if c > 1 / 2 then i + 1 else i))
    split
    · exact h1
    · exact h0
  · unfold interpolate between
    simp [h0, h1]
  · unfold interpolate between
    simp [h0, h1, h2, h3, sub_eq_add_neg]

theorem frame_some {r : ℝ → ℝ} {w : Multi} {wave : ℕ → ℕ → ℝ} (hr : Rounds r w.size) (hs : w.size < 2 ^ 32)
    (hw : Repeats w wave) (quality : ℤ) (interval : ℝ) {phase : ℝ} (h0 : 0 ≤ phase) (h1 : phase ≤ 1) (fd : ℝ × ℝ)
    (hi : Fits (increment r interval fd)) :
    ∃ p, incrementAndWrap r phase (increment r interval fd) = some p ∧ 0 ≤ p ∧ p ≤ 1 ∧
      frame r w quality interval phase fd.1 fd.2 = some (heard w.size wave quality fd.1 (r (phase * w.size)), p) := by
  obtain ⟨p, hp, hp0, hp1⟩ := wrap_some hr h0 h1 hi
  refine ⟨p, hp, hp0, hp1, ?_⟩
  have hsz : (0 : ℝ) ≤ w.size := Nat.cast_nonneg _
  have hpos0 : 0 ≤ r (phase * w.size) := by rw [← hr.zero]; exact hr.mono (mul_nonneg h0 hsz)
  have hpos1 : r (phase * w.size) ≤ w.size := by
    conv_rhs => rw [← hr.size]
    exact hr.mono (by nlinarith)
  have hu : toUnsigned (r (phase * w.size)) = some ⌊r (phase * w.size)⌋ := by
    unfold toUnsigned
    have : (w.size : ℝ) < 2 ^ 32 := by exact_mod_cast hs
    rw [if_pos ⟨by linarith, by linarith⟩, trunc_nonneg hpos0]
  set pos := r (phase * w.size)
  have hf0 : 0 ≤ ⌊pos⌋ := Int.floor_nonneg.mpr hpos0
  have hf1 : ⌊pos⌋ ≤ w.size := by
    have : (⌊pos⌋ : ℝ) ≤ w.size := (Int.floor_le _).trans hpos1
    exact_mod_cast this
  have hget : ∀ m, m < 24 → ∀ how, interpolate (fun i => w.get m (⌊pos⌋ + i)) (pos - ⌊pos⌋) how =
      some (between (fun i : ℤ => wave m (i % (w.size : ℤ)).toNat) ⌊pos⌋ (pos - ⌊pos⌋) how) := by
    intro m hm how
    exact interpolate_some (i := ⌊pos⌋) (u := fun i : ℤ => wave m (i % (w.size : ℤ)).toNat)
      (fun k hk hk' => hw m hm _ (by omega) (by omega)) how
  unfold increment at hp
  unfold frame heard ofQuality
  simp only [show r (phase * w.size) = pos from rfl, hu, Option.bind_eq_bind, Option.bind_some]
  have hm := tableFor_lt fd.1
  have hm2 := pairFor_lt fd.1
  by_cases hq0 : quality ≤ 0
  · simp [hq0, hget _ hm, hp, -Int.self_sub_floor]
  · by_cases hq1 : quality = 1
    · simp [hq1, hget _ hm, hp, -Int.self_sub_floor]
    · by_cases hq2 : quality = 2
      · simp [hq2, hget _ hm, hp, -Int.self_sub_floor]
      · simp [hq0, hq1, hq2, hget _ hm2.1, hget _ hm2.2, hp, -Int.self_sub_floor]

/-! ### C107 -/

/-- C107 (partial): whatever frequencies and detunings are, negative ones included, and however phases are rounded, every frame
is computed, the phase stays between 0 and 1, and the first sample is that of the repeated waveform; so, by induction, all are.
Missing: increments that leave the range of integers, `huge_frequency_violated`. -/
theorem oscillator_reads_waveform_partial {r : ℝ → ℝ} {w : Multi} {wave : ℕ → ℕ → ℝ} (hr : Rounds r w.size)
    (hs : w.size < 2 ^ 32) (hw : Repeats w wave) (quality : ℤ) (interval : ℝ) (l : List (ℝ × ℝ)) :
    ∀ {phase : ℝ}, 0 ≤ phase → phase ≤ 1 → (∀ fd ∈ l, Fits (increment r interval fd)) →
    ∃ phases : List ℝ, phases.length = l.length + 1 ∧ phases.head? = some phase ∧ (∀ p ∈ phases, 0 ≤ p ∧ p ≤ 1) ∧
      (∀ x ∈ l.zip (phases.zip phases.tail), incrementAndWrap r x.2.1 (increment r interval x.1) = some x.2.2) ∧
      processModulated r w quality interval phase l =
        some ((l.zip phases).map (fun x => heard w.size wave quality x.1.1 (r (x.2 * w.size))), phases.getLast?.getD 0) := by
  induction l with
  | nil =>
    intro phase h0 h1 _
    exact ⟨[phase], rfl, rfl, by simp [h0, h1], by simp, rfl⟩
  | cons fd l ih =>
    intro phase h0 h1 hi
    obtain ⟨p, hwr, hp0, hp1, hf⟩ := frame_some hr hs hw quality interval h0 h1 fd (hi fd (by simp))
    obtain ⟨ps, hlen, hhead, hmem, hch, hrun⟩ := ih hp0 hp1 (fun x hx => hi x (by simp [hx]))
    refine ⟨phase :: ps, by simp [hlen], rfl, ?_, ?_, ?_⟩
    · intro q hq
      rcases List.mem_cons.mp hq with rfl | hq
      · exact ⟨h0, h1⟩
      · exact hmem q hq
    · obtain ⟨q, qs, rfl⟩ : ∃ q qs, ps = q :: qs := by
        cases ps with
        | nil => simp at hlen
        | cons q qs => exact ⟨q, qs, rfl⟩
      have hq : q = p := by simpa using hhead
      subst hq
      intro x hx
      simp only [List.tail_cons, List.zip_cons_cons, List.mem_cons] at hx
      rcases hx with rfl | hx
      · exact hwr
      · exact hch x hx
    · obtain ⟨f, d⟩ := fd
      have hne : ps ≠ [] := by intro h; simp [h] at hlen
      simp only [processModulated, hf, hrun, Option.bind_eq_bind, Option.bind_some]
      rw [List.getLast?_cons]
      simp [List.getLast?_eq_some_getLast hne]

/-- C107: the first sample of a period and the first one after it are the same: there is no seam. -/
theorem no_seam {w : Multi} (wave : ℕ → ℕ → ℝ) (hs : 0 < w.size) (quality : ℤ) (f : ℝ) :
    heard w.size wave quality f ((1 : ℝ) * w.size) = heard w.size wave quality f ((0 : ℝ) * w.size) := by
  have hs' : (w.size : ℤ) ≠ 0 := by exact_mod_cast hs.ne'
  have h1 : ⌊((1 : ℝ) * w.size)⌋ = (w.size : ℤ) := by rw [one_mul]; exact Int.floor_natCast _
  have h0 : ⌊((0 : ℝ) * w.size)⌋ = 0 := by rw [zero_mul]; exact Int.floor_zero
  have hb : ∀ (m : ℕ) (how : Interpolator),
      between (fun i : ℤ => wave m (i % (w.size : ℤ)).toNat) (w.size : ℤ) 0 how =
      between (fun i : ℤ => wave m (i % (w.size : ℤ)).toNat) 0 0 how := by
    intro m how
    have h2 : ¬ ((0 : ℝ) > 1 / 2) := by norm_num
    cases how <;> simp only [between, h2, if_false] <;> simp
  unfold heard
  simp only [h1, h0]
  have e1 : (1 : ℝ) * w.size - ((w.size : ℤ) : ℝ) = 0 := by push_cast; ring
  have e0 : (0 : ℝ) * w.size - ((0 : ℤ) : ℝ) = 0 := by push_cast; ring
  simp only [e1, e0, hb]

theorem writeTables_at (size : ℕ) (amplitude : ℝ) (harmonic : ℕ → ℂ) (junk : ℕ → ℝ) (m k : ℕ) (hk : k < size) :
    writeTables size amplitude harmonic junk (tableStart size m + k) =
      generate size amplitude (cutoffOf size m) harmonic k := by
  have h1 : tableStart size m + k = m * (size + 2 * tableExtra) + (tableExtra + k) := by
    unfold tableStart; omega
  have hlt' : tableExtra + k < size + 2 * tableExtra := by unfold tableExtra; omega
  unfold writeTables
  simp only [h1]
  rw [Nat.add_comm (m * _), Nat.add_mul_div_right _ _ (by omega), Nat.div_eq_of_lt hlt', Nat.add_mul_mod_self_right,
    Nat.mod_eq_of_lt hlt', if_pos (by omega)]
  simp only [Nat.zero_add, Nat.add_sub_cancel_left]

/-- Non-vacuity: every wavetable of the engine repeats, whatever was in memory. -/
theorem create_repeats (size : ℕ) (hs : 0 < size) (amplitude : ℝ) (harmonic : ℕ → ℂ) (junk : ℕ → ℝ) :
    Repeats (create size amplitude harmonic junk) (fun m => generate size amplitude (cutoffOf size m) harmonic) := by
  have h := fillExtra_repeats { size, data := writeTables size amplitude harmonic junk } hs
  intro m hm i hi hi'
  have hsz : (0 : ℤ) < size := by exact_mod_cast hs
  have hlt := Int.emod_lt_of_pos i hsz
  have hge := Int.emod_nonneg i hsz.ne'
  have := h m hm i hi hi'
  rw [create, this]
  congr 1
  exact writeTables_at size amplitude harmonic junk m _ (by change (i % (size : ℤ)).toNat < size; omega)

/-- Non-vacuity: a note at 440 Hz that slides down through zero to -440 Hz, with the saw of the engine. -/
example : ∃ out p, processModulated id (create 1024 1 sawProfile (fun _ => 7)) 3 (1 / 48000) 0.5
    [(440, 1), (0, 1), (-440, 1.01)] = some (out, p) ∧ out.length = 3 := by
  obtain ⟨ps, hl, _, _, _, h⟩ := oscillator_reads_waveform_partial (rounds_exact 1024) (by norm_num [create, fillExtra])
    (create_repeats 1024 (by norm_num) 1 sawProfile (fun _ => 7)) 3 (1 / 48000) [(440, 1), (0, 1), (-440, 1.01)]
    (phase := 0.5) (by norm_num) (by norm_num) (by
      intro fd hfd
      simp only [List.mem_cons, List.not_mem_nil, or_false] at hfd
      rcases hfd with rfl | rfl | rfl <;> norm_num [Fits, increment])
  exact ⟨_, _, h, by simp [hl]⟩

/-- C107 is violated beyond the range of integers: a frame that advances by `2 ^ 31` periods is undefined. Pitches are not
limited, and frequency modulation multiplies them by up to 100. -/
theorem huge_frequency_violated (w : Multi) :
    processModulated id w 1 (1 / 48000) 0 [(48000 * 2 ^ 31, 1)] = none := by
  have hwrap : incrementAndWrap id 0 (id (48000 * 2 ^ 31 * id (1 * (1 / 48000)))) = none := by
    have h : toInt (id (0 + id (48000 * 2 ^ 31 * id (1 * (1 / 48000))))) = none := by
      unfold toInt
      rw [if_neg]
      simp only [id]; norm_num
    unfold incrementAndWrap
    simp only [h]; rfl
  have hframe : frame id w 1 (1 / 48000) 0 (48000 * 2 ^ 31) 1 = none := by
    unfold frame
    simp only [hwrap, Option.bind_eq_bind]
    cases toUnsigned (id (0 * (w.size : ℝ))) with
    | none => rfl
    | some i =>
      simp only [Option.bind_some, ofQuality]
      norm_num
  simp only [processModulated, hframe, Option.bind_eq_bind, Option.bind_none]

/-! ### C108 -/

/-- The samples of a phase that is never wrapped. -/
noncomputable def sounding (size : ℕ) (wave : ℕ → ℕ → ℝ) (quality : ℤ) (interval : ℝ) : ℝ → List (ℝ × ℝ) → List ℝ
  | _, [] => []
  | periods, (f, d) :: rest =>
    heard size wave quality f (Int.fract periods * size) :: sounding size wave quality interval (periods + f * (d * interval)) rest

/-- The periods that pass in a list of frames. -/
def elapsed (interval : ℝ) (l : List (ℝ × ℝ)) : ℝ := (l.map fun fd => fd.1 * (fd.2 * interval)).sum

theorem wrap_exact {phase inc : ℝ} (h0 : 0 ≤ phase) (h1 : phase ≤ 1) (hi : Fits inc) :
    incrementAndWrap id phase inc = some (Int.fract (phase + inc)) := by
  obtain ⟨hl, hu⟩ := hi
  have hint : toInt (phase + inc) = some (trunc (phase + inc)) := by
    unfold toInt; exact if_pos ⟨by linarith, by linarith⟩
  unfold incrementAndWrap
  simp only [id, hint, Option.bind_eq_bind, Option.bind_some]
  set p := phase + inc
  rcases le_or_gt 0 p with h | h
  · rw [trunc_nonneg h, Int.self_sub_floor, if_neg (not_lt.mpr (Int.fract_nonneg p))]; rfl
  · rw [trunc_neg h]
    by_cases hz : p - (⌈p⌉ : ℝ) < 0
    · rw [if_pos hz]
      congr 1
      have hne : Int.fract p ≠ 0 := by
        intro h0
        have : p = ⌊p⌋ := by have := Int.self_sub_floor p; linarith
        rw [this, Int.ceil_intCast] at hz
        linarith
      have hc : ⌈p⌉ = ⌊p⌋ + 1 := by
        have := Int.ceil_eq_add_one_sub_fract hne
        have hf := Int.self_sub_floor p
        have : (⌈p⌉ : ℝ) = (⌊p⌋ : ℝ) + 1 := by linarith
        exact_mod_cast this
      rw [hc, ← Int.self_sub_floor]; push_cast; ring
    · rw [if_neg hz]
      have hle := Int.le_ceil p
      have he : p = ⌈p⌉ := by linarith
      have : Int.fract p = 0 := by rw [he]; exact Int.fract_intCast _
      rw [this]; change some (p - (⌈p⌉ : ℝ)) = some 0; congr 1; linarith

/-- C108: with exact arithmetic, after any changes of pitch the oscillator is where the sum of all frequencies over time puts
it: it neither loses nor gains a fraction of a period. -/
theorem pitch_exact {w : Multi} {wave : ℕ → ℕ → ℝ} (hs : w.size < 2 ^ 32) (hw : Repeats w wave) (quality : ℤ) (interval : ℝ)
    (l : List (ℝ × ℝ)) : ∀ (periods : ℝ), (∀ fd ∈ l, Fits (fd.1 * (fd.2 * interval))) →
    processModulated id w quality interval (Int.fract periods) l =
      some (sounding w.size wave quality interval periods l, Int.fract (periods + elapsed interval l)) := by
  induction l with
  | nil => intro periods _; simp [processModulated, sounding, elapsed]
  | cons fd l ih =>
    intro periods hi
    obtain ⟨f, d⟩ := fd
    have hfit := hi (f, d) (by simp)
    have h0 := Int.fract_nonneg periods
    have h1 := (Int.fract_lt_one periods).le
    obtain ⟨p, hwr, -, -, hf⟩ := frame_some (rounds_exact w.size) hs hw quality interval h0 h1 (f, d) hfit
    have hp : p = Int.fract (periods + f * (d * interval)) := by
      have := wrap_exact h0 h1 hfit
      rw [show increment id interval (f, d) = f * (d * interval) from rfl, this] at hwr
      have hwr := Option.some.inj hwr
      rw [← hwr]
      have : Int.fract periods + f * (d * interval) = periods + f * (d * interval) - (⌊periods⌋ : ℤ) := by
        rw [← Int.self_sub_floor]; ring
      simp only at *
      rw [this, Int.fract_sub_intCast]
    simp only [processModulated, hf, hp, Option.bind_eq_bind, Option.bind_some]
    rw [ih _ (fun x hx => hi x (by simp [hx]))]
    simp only [Option.bind_some, sounding, elapsed, List.map_cons, List.sum_cons, id]
    rw [add_assoc]
    rfl

/-- C108: two blocks in a row are one longer block. -/
theorem blocks_compose (r : ℝ → ℝ) (w : Multi) (quality : ℤ) (interval : ℝ) (l l' : List (ℝ × ℝ)) : ∀ phase : ℝ,
    processModulated r w quality interval phase (l ++ l') = (do
      let (a, p) ← processModulated r w quality interval phase l
      let (b, p) ← processModulated r w quality interval p l'
      return (a ++ b, p)) := by
  induction l with
  | nil =>
    intro phase
    simp only [List.nil_append, processModulated, Option.bind_eq_bind, Option.bind_some]
    cases processModulated r w quality interval phase l' <;> rfl
  | cons fd l ih =>
    intro phase
    obtain ⟨f, d⟩ := fd
    simp only [List.cons_append, processModulated, Option.bind_eq_bind]
    cases frame r w quality interval phase f d with
    | none => rfl
    | some x =>
      simp only [Option.bind_some, ih]
      cases processModulated r w quality interval x.2 l with
      | none => rfl
      | some y =>
        simp only [Option.bind_eq_bind, Option.bind_some, pure]
        cases processModulated r w quality interval y.2 l' <;> rfl

/-- C108: an oscillator with a constant pitch does what one with a changing pitch does when it does not change. -/
theorem constant_same (r : ℝ → ℝ) (w : Multi) (quality : ℤ) (interval f d : ℝ) (n : ℕ) : ∀ phase : ℝ,
    process r w quality interval f d phase n = processModulated r w quality interval phase (List.replicate n (f, d)) := by
  unfold process
  induction n with
  | zero => intro phase; rfl
  | succ n ih =>
    intro phase
    simp only [List.replicate_succ, processModulated, frame, process.loop, Option.bind_eq_bind]
    simp only at ih
    cases toUnsigned (r (phase * w.size)) with
    | none => rfl
    | some i =>
      simp only [Option.bind_some]
      cases hq : ofQuality quality with
      | mk model dual =>
        cases dual
        · simp only [Bool.false_eq_true, if_false]
          cases interpolate (fun k => w.get (tableFor f) (i + k)) (r (phase * w.size) - i) model with
          | none => rfl
          | some x =>
            simp only [Option.bind_some]
            cases incrementAndWrap r phase (r (f * r (d * interval))) with
            | none => rfl
            | some p => simp only [Option.bind_some, ih]; rfl
        · simp only [if_true]
          cases interpolate (fun k => w.get (pairFor f).1 (i + k)) (r (phase * w.size) - i) model with
          | none => rfl
          | some x =>
            simp only [Option.bind_some]
            cases interpolate (fun k => w.get (pairFor f).2.1 (i + k)) (r (phase * w.size) - i) model with
            | none => rfl
            | some y =>
              simp only [Option.bind_some]
              cases incrementAndWrap r phase (r (f * r (d * interval))) with
              | none => rfl
              | some p => simp only [Option.bind_some, pure, ih]

/-- The first place behind the 24 tables, each with four places before and behind it, is outside of the memory. -/
example (w : Multi) : w.get 0 ((w.size + 8) * 24 - 4 : ℤ) = none ∧ (w.get 0 ((w.size + 8) * 24 - 5 : ℤ)).isSome = true := by
  unfold Multi.get tableStart tableExtra numTables
  constructor
  · rw [if_neg]
    push_cast
    omega
  · rw [if_pos]
    · rfl
    · push_cast
      omega

end Verif.Wavetable
