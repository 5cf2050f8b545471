import Verif.MidiValue.Model
import Verif.Float32.Props
import Mathlib.Data.List.Induction

/-!
C123: conditions on MIDI values mean what the numbers say.  C124: values come back as they were given.

A condition is written with numbers 0 to 127 (bends: -8192 to 8191), MIDI events carry such numbers, and the library compares
`float`s computed from both.  The theorems say that rounding never changes the answer, and that every value between the MIDI
numbers, as the high definition calls allow, is treated as one of them.
-/
namespace Verif.MidiValue

open Verif.Float32 Verif.Range

/-! ## Rounded numbers apart from each other -/

lemma near {x : ℚ} (hx : |x| < 2) : |fl x - x| ≤ 1 / 2 ^ 24 := by
  have h := fl_error x
  have hu : ulp x ≤ 2 ^ (-23 : ℤ) := by
    unfold ulp
    apply zpow_mono
    unfold binExp
    rcases eq_or_ne x 0 with h0 | h0
    · subst h0; simp
    · have : Int.log 2 |x| < 1 := zpow_lt_iff.mp (lt_of_le_of_lt (log_le (abs_pos.mpr h0)) (by simpa using hx))
      omega
  norm_num at hu ⊢
  linarith

lemma apart {x y : ℚ} (hx : |x| < 2) (hy : |y| < 2) (h : x + 1 / 2 ^ 22 ≤ y) : fl x < fl y := by
  have h1 := abs_le.mp (near hx)
  have h2 := abs_le.mp (near hy)
  norm_num at h h1 h2 ⊢
  linarith [h1.2, h2.1]

lemma fl_int {n : ℤ} (h : |n| < 2 ^ 24) : fl (n : ℚ) = n := fl_of_isFloat (isFloat_int h)

lemma fl_one : fl 1 = 1 := by exact_mod_cast fl_int (n := 1) (by norm_num)

/-- Steps of the MIDI scales stay steps. -/
lemma scaled_lt {N : ℤ} (hN : 2 ≤ N) (hN' : N ≤ 8191) {a b : ℤ} (h : a < b) (hb : 0 ≤ b + N) (ha : a ≤ N) :
    fl (fl (a : ℚ) / N) < fl (fl (b : ℚ) / N) := by
  have hNq : (0 : ℚ) < N := by exact_mod_cast (by omega : (0 : ℤ) < N)
  -- bring both numbers into reach
  set a' := max a (-N - 1) with ha'
  set b' := min b (N + 1) with hb'
  have hab : a' + 1 ≤ b' := by omega
  have h1 : fl (fl (a : ℚ) / N) ≤ fl (fl (a' : ℚ) / N) := by
    apply fl_mono; rw [div_le_div_iff_of_pos_right hNq]; apply fl_mono; exact_mod_cast le_max_left _ _
  have h2 : fl (fl (b' : ℚ) / N) ≤ fl (fl (b : ℚ) / N) := by
    apply fl_mono; rw [div_le_div_iff_of_pos_right hNq]; apply fl_mono; exact_mod_cast min_le_left _ _
  refine lt_of_le_of_lt h1 (lt_of_lt_of_le ?_ h2)
  rw [fl_int (n := a') (by rw [abs_lt]; omega), fl_int (n := b') (by rw [abs_lt]; omega)]
  have hbig : (1 : ℚ) / 8191 ≤ 1 / N := by
    apply one_div_le_one_div_of_le hNq; exact_mod_cast hN'
  have habq : (a' : ℚ) + 1 ≤ b' := by exact_mod_cast hab
  have hdiv : (a' : ℚ) / N + 1 / N ≤ b' / N := by
    rw [← add_div, div_le_div_iff_of_pos_right hNq]; exact habq
  have small : ∀ c : ℤ, |c| ≤ N + 1 → |(c : ℚ) / N| < 2 := by
    intro c hc
    rw [abs_div, abs_of_pos hNq, div_lt_iff₀ hNq]
    have : |c| < 2 * N := by omega
    exact_mod_cast this
  refine apart (small a' (by rw [abs_le]; omega)) (small b' (by rw [abs_le]; omega)) ?_
  norm_num at hbig ⊢
  norm_num at hdiv
  linarith

/-- The bounds of a scale, seen from one of its numbers. -/
lemma scaled_le_iff {N : ℤ} (hN : 2 ≤ N) (hN' : N ≤ 8191) {v z : ℤ} (h1 : -N ≤ v) (h2 : v ≤ N) :
    (fl (fl (z : ℚ) / N) ≤ fl (fl (v : ℚ) / N) ↔ z ≤ v) ∧ (fl (fl (v : ℚ) / N) ≤ fl (fl (z : ℚ) / N) ↔ v ≤ z) := by
  have hNq : (0 : ℚ) < N := by exact_mod_cast (by omega : (0 : ℤ) < N)
  have mono : ∀ {a b : ℤ}, a ≤ b → fl (fl (a : ℚ) / N) ≤ fl (fl (b : ℚ) / N) := by
    intro a b h
    apply fl_mono; rw [div_le_div_iff_of_pos_right hNq]; apply fl_mono; exact_mod_cast h
  refine ⟨⟨fun h => ?_, mono⟩, ⟨fun h => ?_, mono⟩⟩
  · by_contra hc
    exact absurd (scaled_lt hN hN' (a := v) (b := z) (by omega) (by omega) h2) (by linarith)
  · by_contra hc
    exact absurd (scaled_lt hN hN' (a := z) (b := v) (by omega) (by omega) (by omega)) (by linarith)

/-! ## What the settings read -/

lemma checkBounds_permissive (lo hi x : ℚ) : Opcode.checkBounds (permissive lo hi) x = none := by
  unfold Opcode.checkBounds permissive
  split_ifs <;> simp_all

lemma read_eq (d lo hi : ℚ) (f : Flags) (x : ℚ) :
    Setting.read ⟨d, permissive lo hi, f⟩ x = normalizeInput f x := by
  simp [Setting.read, Opcode.transformFloat, checkBounds_permissive]

lemma loMidi_read (x : ℚ) : loMidi.read x = fl (x / 127) := by
  rw [loMidi, read_eq]; simp [normalizeInput]

lemma threshold_read (x : ℚ) : threshold.read x = fl (x / 127) := by
  rw [threshold, read_eq]; simp [normalizeInput]

lemma hiMidi_read (x : ℚ) :
    hiMidi.read x = if x ≤ 126 ∧ 0 ≤ x then below (fl (fl (x + 1) / 127)) else fl (x / 127) := by
  rw [hiMidi, read_eq]; simp [normalizeInput]

lemma loBend_read (x : ℚ) : loBend.read x = fl (x / 8191) := by
  rw [loBend, read_eq]; simp [normalizeInput]

lemma hiBend_read (x : ℚ) : hiBend.read x = fl (x / 8191) := by
  rw [hiBend, read_eq]; simp [normalizeInput]

lemma loMidi_default : loMidi.default = loMidi.read (fl ((0 : ℤ) : ℚ)) := by
  rw [loMidi_read, Int.cast_zero, fl_zero]; simp [Setting.default, loMidi, normalizeInput]

lemma hiMidi_default : hiMidi.default = hiMidi.read (fl ((127 : ℤ) : ℚ)) := by
  rw [hiMidi_read, fl_int (by norm_num)]; simp [Setting.default, hiMidi, normalizeInput]; norm_num

lemma loBend_default : loBend.default = loBend.read (fl ((-8191 : ℤ) : ℚ)) := by
  rw [loBend_read, fl_int (by norm_num)]; simp [Setting.default, loBend, normalizeInput]

lemma hiBend_default : hiBend.default = hiBend.read (fl ((8191 : ℤ) : ℚ)) := by
  rw [hiBend_read, fl_int (by norm_num)]; simp [Setting.default, hiBend, normalizeInput]

lemma threshold_default : threshold.default = threshold.read (fl ((1 : ℤ) : ℚ)) := by
  rw [threshold_read, Int.cast_one, fl_one]; simp [Setting.default, threshold, normalizeInput]

/-! ## Values between the MIDI numbers -/

/-- A value of the high definition calls is treated as the MIDI number `k` by every pair of bounds `lo`, `hi` written. -/
def ActsAs (x : ℚ) (k : ℤ) : Prop :=
  ∀ lo hi : ℤ, containsWithEnd ⟨loMidi.read (fl lo), hiMidi.read (fl hi)⟩ x = true ↔ lo ≤ k ∧ k ≤ hi

/-- The same for bends. -/
def BendsAs (x : ℚ) (k : ℤ) : Prop :=
  ∀ lo hi : ℤ, containsWithEnd ⟨loBend.read (fl lo), hiBend.read (fl hi)⟩ x = true ↔ lo ≤ k ∧ k ≤ hi

lemma actsAs_of {x : ℚ} (hx : IsFloat x) (h0 : 0 ≤ x) (h1 : x ≤ 1) {k : ℤ} (hk0 : 0 ≤ k) (hk1 : k ≤ 127)
    (hle : fl (fl (k : ℚ) / 127) ≤ x) (hlt : k < 127 → x < fl (fl ((k + 1 : ℤ) : ℚ) / 127)) : ActsAs x k := by
  have mono : ∀ {a b : ℤ}, a ≤ b → fl (fl (a : ℚ) / 127) ≤ fl (fl (b : ℚ) / 127) := by
    intro a b h
    apply fl_mono; rw [div_le_div_iff_of_pos_right (by norm_num)]; apply fl_mono; exact_mod_cast h
  have one : fl (fl ((127 : ℤ) : ℚ) / 127) = 1 := by
    rw [fl_int (by norm_num)]; norm_num [fl_one]
  -- which lower bounds are reached
  have low : ∀ z : ℤ, fl (fl (z : ℚ) / 127) ≤ x ↔ z ≤ k := by
    intro z
    refine ⟨fun h => ?_, fun h => (mono h).trans hle⟩
    by_contra hc
    push Not at hc
    rcases lt_or_eq_of_le hk1 with hk | hk
    · exact absurd ((mono (show k + 1 ≤ z by omega)).trans h) (by have := hlt hk; linarith)
    · have := scaled_lt (N := 127) (by norm_num) (by norm_num) (a := 127) (b := z) (by omega) (by omega) le_rfl
      push_cast at this
      have e : fl (fl (127 : ℚ) / 127) = 1 := by exact_mod_cast one
      rw [e] at this
      linarith
  intro lo hi
  unfold containsWithEnd
  simp only [Bool.and_eq_true, decide_eq_true_eq, ge_iff_le]
  rw [loMidi_read, low lo, hiMidi_read]
  refine and_congr_right fun _ => ?_
  split_ifs with hh
  · obtain ⟨ha, hb⟩ := hh
    have hi126 : hi ≤ 126 := by
      by_contra hc
      have : fl ((127 : ℤ) : ℚ) ≤ fl (hi : ℚ) := fl_mono (by exact_mod_cast (by omega : (127 : ℤ) ≤ hi))
      rw [fl_int (by norm_num)] at this; push_cast at this; linarith
    have hi0 : 0 ≤ hi := by
      by_contra hc
      have : fl (hi : ℚ) ≤ fl ((-1 : ℤ) : ℚ) := fl_mono (by exact_mod_cast (by omega : hi ≤ (-1 : ℤ)))
      rw [fl_int (n := -1) (by norm_num)] at this; push_cast at this; linarith
    rw [fl_int (by rw [abs_lt]; omega)]
    have hcast : (hi : ℚ) + 1 = ((hi + 1 : ℤ) : ℚ) := by push_cast; ring
    rw [hcast]
    have hpos : 0 < fl (fl ((hi + 1 : ℤ) : ℚ) / 127) := by
      have := scaled_lt (N := 127) (by norm_num) (by norm_num) (a := 0) (b := hi + 1) (by omega) (by omega) (by omega)
      rw [Int.cast_zero, fl_zero, zero_div, fl_zero] at this
      exact_mod_cast this
    rw [le_below_iff hpos (fl_isFloat _) hx]
    rw [← not_le, low (hi + 1)]
    omega
  · have hcase : hi < 0 ∨ 127 ≤ hi := by
      by_contra hc
      push Not at hc
      rw [fl_int (by rw [abs_lt]; omega)] at hh
      exact hh ⟨by exact_mod_cast (by omega : hi ≤ 126), by exact_mod_cast hc.1⟩
    rcases hcase with h | h
    · refine ⟨fun hx' => ?_, fun _ => by omega⟩
      have := scaled_lt (N := 127) (by norm_num) (by norm_num) (a := hi) (b := 0) (by omega) (by omega) (by omega)
      rw [Int.cast_zero, fl_zero, zero_div, fl_zero] at this
      push_cast at this
      linarith
    · refine ⟨fun _ => by omega, fun _ => ?_⟩
      have := mono h
      rw [one] at this
      linarith

/-- **Every high definition value from 0 to 1 is treated as exactly one MIDI number: the one whose `float` is the last not
above it.** -/
theorem hd_value {x : ℚ} (hx : IsFloat x) (h0 : 0 ≤ x) (h1 : x ≤ 1) :
    ∃! k : ℤ, 0 ≤ k ∧ k ≤ 127 ∧ ActsAs x k := by
  classical
  have hP0 : fl (fl (((0 : ℕ) : ℤ) : ℚ) / 127) ≤ x := by
    rw [Nat.cast_zero, Int.cast_zero, fl_zero, zero_div, fl_zero]; exact h0
  set k := Nat.findGreatest (fun j : ℕ => fl (fl ((j : ℤ) : ℚ) / 127) ≤ x) 127 with hk
  have hle : k ≤ 127 := Nat.findGreatest_le _
  have hspec : fl (fl ((k : ℤ) : ℚ) / 127) ≤ x :=
    Nat.findGreatest_spec (P := fun j : ℕ => fl (fl ((j : ℤ) : ℚ) / 127) ≤ x) (Nat.zero_le 127) hP0
  have hact : ActsAs x k := by
    refine actsAs_of hx h0 h1 (by omega) (by exact_mod_cast hle) hspec fun h => ?_
    have := Nat.findGreatest_is_greatest (P := fun j : ℕ => fl (fl ((j : ℤ) : ℚ) / 127) ≤ x) (n := 127) (k := k + 1)
      (by rw [← hk]; omega) (by omega)
    push Not at this
    exact_mod_cast this
  refine ⟨k, ⟨by omega, by exact_mod_cast hle, hact⟩, fun j ⟨_, _, hj⟩ => ?_⟩
  have a := (hj j j).mpr ⟨le_rfl, le_rfl⟩
  have b := (hact j j).mp a
  omega

lemma midi_actsAs {v : ℤ} (h0 : 0 ≤ v) (h1 : v ≤ 127) : ActsAs (normalize7Bits v) v := by
  have e : normalize7Bits v = fl (fl (v : ℚ) / 127) := by
    unfold normalize7Bits; rw [show min (max v 0) 127 = v by omega]
  rw [e]
  have hle : ∀ {a b : ℤ}, a ≤ b → fl (fl (a : ℚ) / 127) ≤ fl (fl (b : ℚ) / 127) := by
    intro a b h
    apply fl_mono; rw [div_le_div_iff_of_pos_right (by norm_num)]; apply fl_mono; exact_mod_cast h
  refine actsAs_of (fl_isFloat _) ?_ ?_ h0 h1 le_rfl fun h => ?_
  · have := hle h0; rwa [Int.cast_zero, fl_zero, zero_div, fl_zero] at this
  · have := hle h1; rw [fl_int (n := 127) (by norm_num)] at this; norm_num [fl_one] at this; exact this
  · have := scaled_lt (N := 127) (by norm_num) (by norm_num) (a := v) (b := v + 1) (by omega) (by omega) (by omega)
    exact_mod_cast this

lemma normalize7Bits_clamp (v : ℤ) : normalize7Bits v = normalize7Bits (min (max v 0) 127) := by
  unfold normalize7Bits; congr 4; omega

lemma bend_bendsAs (v : ℤ) : BendsAs (normalizeBend v) (max (min v 8191) (-8191)) := by
  set k := max (min v 8191) (-8191) with hk
  have e : normalizeBend v = fl (fl (k : ℚ) / 8191) := by
    unfold normalizeBend
    rw [fl_int (n := k) (by rw [abs_lt]; omega)]
    congr 2
    rcases le_total v 8191 with h | h
    · rcases le_total v (-8191) with h' | h'
      · have : fl (v : ℚ) ≤ fl ((-8191 : ℤ) : ℚ) := fl_mono (by exact_mod_cast h')
        rw [fl_int (n := -8191) (by norm_num)] at this; push_cast at this
        rw [show k = -8191 by omega, max_eq_right]; · norm_num
        exact (min_le_left _ _).trans this
      · rw [show k = v by omega, fl_int (by rw [abs_lt]; omega), min_eq_left (by exact_mod_cast h),
          max_eq_left (by exact_mod_cast h')]
    · have : fl ((8191 : ℤ) : ℚ) ≤ fl (v : ℚ) := fl_mono (by exact_mod_cast h)
      rw [fl_int (by norm_num)] at this; push_cast at this
      rw [show k = 8191 by omega, min_eq_right this, max_eq_left (by norm_num)]; norm_num
  intro lo hi
  have := fun z => scaled_le_iff (N := 8191) (by norm_num) le_rfl (v := k) (z := z) (by omega) (by omega)
  push_cast at this
  unfold containsWithEnd
  simp only [Bool.and_eq_true, decide_eq_true_eq, ge_iff_le]
  rw [loBend_read, hiBend_read, e, (this lo).1, (this hi).2]

/-! ## The bounds of a region -/

/-- The number of the last opcode of a kind, `d` if there is none. -/
def lastOf (sel : Opc → Option ℚ) (d : ℚ) (ops : List Opc) : ℚ := (ops.filterMap sel).getLastD d

lemma lastOf_append (sel : Opc → Option ℚ) (d : ℚ) (ops : List Opc) (o : Opc) :
    lastOf sel d (ops ++ [o]) = (sel o).getD (lastOf sel d ops) := by
  unfold lastOf
  rw [List.filterMap_append]
  cases h : sel o <;> simp [h]

lemma build_append (ops : List Opc) (o : Opc) : build (ops ++ [o]) = apply (build ops) o := by
  simp [build, List.foldl_append]

def Opc.lovel? : Opc → Option ℚ | .lovel z => some z | _ => none
def Opc.hivel? : Opc → Option ℚ | .hivel z => some z | _ => none
def Opc.lobend? : Opc → Option ℚ | .lobend z => some z | _ => none
def Opc.hibend? : Opc → Option ℚ | .hibend z => some z | _ => none
def Opc.lochanaft? : Opc → Option ℚ | .lochanaft z => some z | _ => none
def Opc.hichanaft? : Opc → Option ℚ | .hichanaft z => some z | _ => none
def Opc.lopolyaft? : Opc → Option ℚ | .lopolyaft z => some z | _ => none
def Opc.hipolyaft? : Opc → Option ℚ | .hipolyaft z => some z | _ => none
def Opc.sustainLo? : Opc → Option ℚ | .sustainLo z => some z | _ => none
def Opc.sostenutoLo? : Opc → Option ℚ | .sostenutoLo z => some z | _ => none
def Opc.locc? (n : ℕ) : Opc → Option ℚ | .locc m z => if m = n then some z else none | _ => none
def Opc.hicc? (n : ℕ) : Opc → Option ℚ | .hicc m z => if m = n then some z else none | _ => none
def Opc.startLocc? (n : ℕ) : Opc → Option ℚ | .startLocc m z => if m = n then some z else none | _ => none
def Opc.startHicc? (n : ℕ) : Opc → Option ℚ | .startHicc m z => if m = n then some z else none | _ => none

lemma build_velocity (ops : List Opc) : (build ops).velocityRange =
    ⟨loMidi.read (fl (lastOf Opc.lovel? 0 ops)), hiMidi.read (fl (lastOf Opc.hivel? 127 ops))⟩ := by
  induction ops using List.reverseRecOn with
  | nil => simp [build, fresh, lastOf, loMidi_default, hiMidi_default]
  | append_singleton ops o ih =>
    rw [build_append, lastOf_append, lastOf_append]
    cases o <;> simp only [apply, Opc.lovel?, Opc.hivel?, Option.getD] <;> (try split_ifs) <;> simp [ih, setStart, setEnd]

lemma build_bend (ops : List Opc) : (build ops).bendRange =
    ⟨loBend.read (fl (lastOf Opc.lobend? (-8191) ops)), hiBend.read (fl (lastOf Opc.hibend? 8191 ops))⟩ := by
  induction ops using List.reverseRecOn with
  | nil => simp [build, fresh, lastOf, loBend_default, hiBend_default]
  | append_singleton ops o ih =>
    rw [build_append, lastOf_append, lastOf_append]
    cases o <;> simp only [apply, Opc.lobend?, Opc.hibend?, Option.getD] <;> (try split_ifs) <;> simp [ih, setStart, setEnd]

lemma build_chanaft (ops : List Opc) : (build ops).aftertouchRange =
    ⟨loMidi.read (fl (lastOf Opc.lochanaft? 0 ops)), hiMidi.read (fl (lastOf Opc.hichanaft? 127 ops))⟩ := by
  induction ops using List.reverseRecOn with
  | nil => simp [build, fresh, lastOf, loMidi_default, hiMidi_default]
  | append_singleton ops o ih =>
    rw [build_append, lastOf_append, lastOf_append]
    cases o <;> simp only [apply, Opc.lochanaft?, Opc.hichanaft?, Option.getD] <;> (try split_ifs) <;>
      simp [ih, setStart, setEnd]

lemma build_polyaft (ops : List Opc) : (build ops).polyAftertouchRange =
    ⟨loMidi.read (fl (lastOf Opc.lopolyaft? 0 ops)), hiMidi.read (fl (lastOf Opc.hipolyaft? 127 ops))⟩ := by
  induction ops using List.reverseRecOn with
  | nil => simp [build, fresh, lastOf, loMidi_default, hiMidi_default]
  | append_singleton ops o ih =>
    rw [build_append, lastOf_append, lastOf_append]
    cases o <;> simp only [apply, Opc.lopolyaft?, Opc.hipolyaft?, Option.getD] <;> (try split_ifs) <;>
      simp [ih, setStart, setEnd]

lemma build_sustain (ops : List Opc) : (build ops).sustainThreshold = threshold.read (fl (lastOf Opc.sustainLo? 1 ops)) := by
  induction ops using List.reverseRecOn with
  | nil => simp [build, fresh, lastOf, threshold_default]
  | append_singleton ops o ih =>
    rw [build_append, lastOf_append]
    cases o <;> simp only [apply, Opc.sustainLo?, Option.getD] <;> (try split_ifs) <;> simp [ih]

lemma build_sostenuto (ops : List Opc) :
    (build ops).sostenutoThreshold = threshold.read (fl (lastOf Opc.sostenutoLo? 1 ops)) := by
  induction ops using List.reverseRecOn with
  | nil => simp [build, fresh, lastOf, threshold_default]
  | append_singleton ops o ih =>
    rw [build_append, lastOf_append]
    cases o <;> simp only [apply, Opc.sostenutoLo?, Option.getD] <;> (try split_ifs) <;> simp [ih]

lemma upd_apply {β : Type} (f : ℕ → β) (m n : ℕ) (b : β) : Midi.upd f m b n = if n = m then b else f n := by
  simp [Midi.upd]

/-- The conditions on a controller: none unless an opcode mentions it. -/
lemma build_cc (ops : List Opc) (n : ℕ) (hn : n < 512) :
    ((build ops).ccConditions n).getD ccRange =
      ⟨loMidi.read (fl (lastOf (Opc.locc? n) 0 ops)), hiMidi.read (fl (lastOf (Opc.hicc? n) 127 ops))⟩ ∧
    (((build ops).ccConditions n).isSome ↔ ∃ o ∈ ops, (o.locc? n).isSome ∨ (o.hicc? n).isSome) := by
  induction ops using List.reverseRecOn with
  | nil => simp [build, fresh, lastOf, ccRange, loMidi_default, hiMidi_default]
  | append_singleton ops o ih =>
    rw [build_append, lastOf_append, lastOf_append]
    simp only [List.mem_append, List.mem_singleton, or_and_right, exists_or, exists_eq_left, ← ih.2]
    cases o with
    | locc m z =>
      rcases eq_or_ne n m with h | h
      · subst h; simp [apply, Opc.locc?, Opc.hicc?, not_le.mpr hn, upd_apply, setStart, ih.1]
      · have h' : m ≠ n := Ne.symm h
        simp only [apply, Opc.locc?, Opc.hicc?, h', if_false]
        split_ifs <;> simp [upd_apply, h, ih.1]
    | hicc m z =>
      rcases eq_or_ne n m with h | h
      · subst h; simp [apply, Opc.locc?, Opc.hicc?, not_le.mpr hn, upd_apply, setEnd, ih.1]
      · have h' : m ≠ n := Ne.symm h
        simp only [apply, Opc.locc?, Opc.hicc?, h', if_false]
        split_ifs <;> simp [upd_apply, h, ih.1]
    | startLocc m z => simp only [apply, Opc.locc?, Opc.hicc?]; split_ifs <;> simp [ih.1]
    | startHicc m z => simp only [apply, Opc.locc?, Opc.hicc?]; split_ifs <;> simp [ih.1]
    | _ => simp [apply, Opc.locc?, Opc.hicc?, ih.1]

/-- The starts by a controller likewise. -/
lemma build_start (ops : List Opc) (n : ℕ) (hn : n < 512) :
    ((build ops).ccTriggers n).getD ccRange =
      ⟨loMidi.read (fl (lastOf (Opc.startLocc? n) 0 ops)), hiMidi.read (fl (lastOf (Opc.startHicc? n) 127 ops))⟩ ∧
    (((build ops).ccTriggers n).isSome ↔ ∃ o ∈ ops, (o.startLocc? n).isSome ∨ (o.startHicc? n).isSome) := by
  induction ops using List.reverseRecOn with
  | nil => simp [build, fresh, lastOf, ccRange, loMidi_default, hiMidi_default]
  | append_singleton ops o ih =>
    rw [build_append, lastOf_append, lastOf_append]
    simp only [List.mem_append, List.mem_singleton, or_and_right, exists_or, exists_eq_left, ← ih.2]
    cases o with
    | startLocc m z =>
      rcases eq_or_ne n m with h | h
      · subst h; simp [apply, Opc.startLocc?, Opc.startHicc?, not_le.mpr hn, upd_apply, setStart, ih.1]
      · have h' : m ≠ n := Ne.symm h
        simp only [apply, Opc.startLocc?, Opc.startHicc?, h', if_false]
        split_ifs <;> simp [upd_apply, h, ih.1]
    | startHicc m z =>
      rcases eq_or_ne n m with h | h
      · subst h; simp [apply, Opc.startLocc?, Opc.startHicc?, not_le.mpr hn, upd_apply, setEnd, ih.1]
      · have h' : m ≠ n := Ne.symm h
        simp only [apply, Opc.startLocc?, Opc.startHicc?, h', if_false]
        split_ifs <;> simp [upd_apply, h, ih.1]
    | locc m z => simp only [apply, Opc.startLocc?, Opc.startHicc?]; split_ifs <;> simp [ih.1]
    | hicc m z => simp only [apply, Opc.startLocc?, Opc.startHicc?]; split_ifs <;> simp [ih.1]
    | _ => simp [apply, Opc.startLocc?, Opc.startHicc?, ih.1]

/-! ## C123 -/

/-- The MIDI number an integer given to the MIDI calls stands for: 7 bits, limited. -/
def seven (v : ℤ) : ℤ := min (max v 0) 127

lemma seven_actsAs (v : ℤ) : ActsAs (normalize7Bits v) (seven v) := by
  rw [normalize7Bits_clamp]; exact midi_actsAs (by omega) (by omega)

lemma build_velocityPrevious (ops : List Opc) : (build ops).velocityPrevious = false ∧ (build ops).keyRange = ⟨0, 127⟩ ∧
    (build ops).sustainCC = 64 ∧ (build ops).checkSustain = true ∧ (build ops).sostenutoCC = 66 ∧
    (build ops).checkSostenuto = true := by
  induction ops using List.reverseRecOn with
  | nil => simp [build, fresh]
  | append_singleton ops o ih =>
    rw [build_append]
    cases o <;> simp only [apply] <;> (try split_ifs) <;> exact ih

/-- **`lovel` and `hivel`: whatever else the region says and whatever has been played, a note is answered at velocity `v`
exactly if the last `lovel` ≤ `v` ≤ the last `hivel` and the same note would be answered at a velocity inside.**  Velocities
of `noteOn` outside 0 to 127 count as the nearest of them; numbers that are not written are 0 and 127. -/
theorem velocity_condition (ops : List Opc) (lo hi : ℤ) (hlo : lastOf Opc.lovel? 0 ops = lo)
    (hhi : lastOf Opc.hivel? 127 ops = hi) (m : Midi.State) (s : Layer.State) (note : ℤ) (rand : ℚ) (v w : ℤ)
    (hw : lo ≤ seven w ∧ seven w ≤ hi) :
    (Layer.registerNoteOn (build ops) m s note (normalize7Bits v) rand).2 = true ↔
      (lo ≤ seven v ∧ seven v ≤ hi) ∧ (Layer.registerNoteOn (build ops) m s note (normalize7Bits w) rand).2 = true := by
  have hr := build_velocity ops
  rw [hlo, hhi] at hr
  have hv := seven_actsAs v lo hi
  have hw' := (seven_actsAs w lo hi).mpr hw
  rw [← hr] at hv hw'
  rw [← hv]
  unfold Layer.registerNoteOn
  simp only [(build_velocityPrevious ops).1, Bool.false_eq_true, if_false, hw']
  split_ifs <;> simp_all
  tauto

/-- The velocity reached by `hdNoteOn` likewise, for the MIDI number `hd_value` gives. -/
theorem velocity_hd (ops : List Opc) (lo hi : ℤ) (hlo : lastOf Opc.lovel? 0 ops = lo)
    (hhi : lastOf Opc.hivel? 127 ops = hi) (x : ℚ) (k : ℤ) (hk : ActsAs x k) :
    containsWithEnd (build ops).velocityRange x = true ↔ lo ≤ k ∧ k ≤ hi := by
  rw [build_velocity, hlo, hhi]; exact hk lo hi

/-- **`loccN` and `hiccN`: after a controller event the condition on it holds exactly if the value lies between the last
numbers written.** -/
theorem cc_condition (ops : List Opc) (n : ℕ) (hn : n < 512) (lo hi : ℤ) (hlo : lastOf (Opc.locc? n) 0 ops = lo)
    (hhi : lastOf (Opc.hicc? n) 127 ops = hi) (hex : ∃ o ∈ ops, (o.locc? n).isSome ∨ (o.hicc? n).isSome)
    (m : Midi.State) (s : Layer.State) (v : ℤ) :
    (Layer.updateCCState (build ops) m s n (normalize7Bits v)).ccSwitched n = true ↔ lo ≤ seven v ∧ seven v ≤ hi := by
  obtain ⟨hr, hs⟩ := build_cc ops n hn
  rw [hlo, hhi] at hr
  have hs := hs.mpr hex
  obtain ⟨c, hc⟩ := Option.isSome_iff_exists.mp hs
  rw [hc, Option.getD_some] at hr
  have := seven_actsAs v lo hi
  rw [← hr] at this
  rw [← this]
  unfold Layer.updateCCState Layer.updateCondition
  rw [hc]
  simp [upd_apply]

/-- **`start_loccN` and `start_hiccN`: a controller event starts a region only if the value lies between the last numbers
written.** -/
theorem start_condition (ops : List Opc) (n : ℕ) (hn : n < 512) (lo hi : ℤ) (hlo : lastOf (Opc.startLocc? n) 0 ops = lo)
    (hhi : lastOf (Opc.startHicc? n) 127 ops = hi) (m : Midi.State) (s : Layer.State) (v : ℤ) (rand : ℚ) (arg : ℤ)
    (h : (Layer.registerCC (build ops) m s n (normalize7Bits v) rand arg).2 = true) :
    (∃ o ∈ ops, (o.startLocc? n).isSome ∨ (o.startHicc? n).isSome) ∧ lo ≤ seven v ∧ seven v ≤ hi := by
  obtain ⟨hr, hs⟩ := build_start ops n hn
  rw [hlo, hhi] at hr
  cases hc : (build ops).ccTriggers n with
  | none => simp [Layer.registerCC, hc] at h
  | some c =>
    rw [hc, Option.getD_some] at hr
    refine ⟨hs.mp (by rw [hc]; rfl), ?_⟩
    have := seven_actsAs v lo hi
    rw [← hr] at this
    rw [← this]
    by_contra hne
    rw [Bool.not_eq_true] at hne
    unfold Layer.registerCC at h
    simp only [hc, hne] at h
    split_ifs at h <;> simp_all

/-- **`lochanaft`, `hichanaft`.** -/
theorem chanaft_condition (ops : List Opc) (lo hi : ℤ) (hlo : lastOf Opc.lochanaft? 0 ops = lo)
    (hhi : lastOf Opc.hichanaft? 127 ops = hi) (s : Layer.State) (v : ℤ) :
    (Layer.registerAftertouch (build ops) s (normalize7Bits v)).aftertouchSwitched = true ↔ lo ≤ seven v ∧ seven v ≤ hi := by
  have hr := build_chanaft ops
  rw [hlo, hhi] at hr
  rw [← seven_actsAs v lo hi, ← hr]
  simp [Layer.registerAftertouch]

/-- **`lopolyaft`, `hipolyaft`: a region answers no note whose aftertouch lies outside.** -/
theorem polyaft_condition (ops : List Opc) (lo hi : ℤ) (hlo : lastOf Opc.lopolyaft? 0 ops = lo)
    (hhi : lastOf Opc.hipolyaft? 127 ops = hi) (m : Midi.State) (s : Layer.State) (note : ℤ) (v : ℤ)
    (hv : Layer.polyAftertouch m note = normalize7Bits v) (vel rand : ℚ)
    (h : (Layer.registerNoteOn (build ops) m s note vel rand).2 = true) : lo ≤ seven v ∧ seven v ≤ hi := by
  have hr := build_polyaft ops
  rw [hlo, hhi] at hr
  rw [← seven_actsAs v lo hi, ← hr, ← hv]
  by_contra hne
  rw [Bool.not_eq_true] at hne
  unfold Layer.registerNoteOn at h
  simp only [hne] at h
  simp at h

/-- **`sustain_lo` and `sostenuto_lo`: a pedal counts as pressed exactly from the number written on, 1 by default.** -/
theorem pedal_condition (ops : List Opc) (z : ℤ) (m : Midi.State) (s : Layer.State) (v : ℤ) :
    (lastOf Opc.sustainLo? 1 ops = z →
      ((Layer.updateCCState (build ops) m s 64 (normalize7Bits v)).sustainPressed = true ↔ z ≤ seven v)) ∧
    (lastOf Opc.sostenutoLo? 1 ops = z →
      ((Layer.updateCCState (build ops) m s 66 (normalize7Bits v)).sostenutoPressed = true ↔ z ≤ seven v)) := by
  have key : (threshold.read (fl (z : ℚ)) ≤ normalize7Bits v ↔ z ≤ seven v) := by
    rw [threshold_read]
    have := (scaled_le_iff (N := 127) (by norm_num) (by norm_num) (v := seven v) (z := z) (by unfold seven; omega)
      (by unfold seven; omega)).1
    push_cast at this
    rw [← this]; rfl
  have hb := build_velocityPrevious ops
  constructor
  · intro h
    have hr := build_sustain ops
    rw [h] at hr
    rw [← key, ← hr]
    unfold Layer.updateCCState Layer.updateCondition Layer.updateSostenuto Layer.updateSustain
    simp only [hb.2.2.1, hb.2.2.2.1, hb.2.2.2.2.1, show (64 : ℕ) ≠ 66 by norm_num, if_false, if_true, Bool.true_and]
    split <;> simp
  · intro h
    have hr := build_sostenuto ops
    rw [h] at hr
    rw [← key, ← hr]
    unfold Layer.updateCCState Layer.updateCondition Layer.updateSostenuto Layer.updateSustain
    simp only [hb.2.2.1, hb.2.2.2.2.1, hb.2.2.2.2.2, show (66 : ℕ) ≠ 64 by norm_num, if_false, if_true, Bool.true_and]
    split <;> simp

/-- **Velocity layers without gaps or overlaps: of regions whose velocity bounds share 0 to 127 out among themselves, every
velocity from 0 to 1 of `hdNoteOn` (so every velocity of `noteOn`) meets exactly one.** `cut i` is the `lovel` of region `i`,
one less than `cut (i + 1)` its `hivel`. -/
theorem one_layer (cut : ℕ → ℤ) (n : ℕ) (hmono : Monotone cut) (h0 : cut 0 = 0) (hn : cut n = 128) {x : ℚ}
    (hx : IsFloat x) (hx0 : 0 ≤ x) (hx1 : x ≤ 1) :
    ∃! i : ℕ, i < n ∧
      containsWithEnd (build [.lovel (cut i : ℚ), .hivel ((cut (i + 1) - 1 : ℤ) : ℚ)]).velocityRange x = true := by
  obtain ⟨k, ⟨hk0, hk1, hk⟩, -⟩ := hd_value hx hx0 hx1
  have cond : ∀ i, containsWithEnd (build [.lovel (cut i : ℚ), .hivel ((cut (i + 1) - 1 : ℤ) : ℚ)]).velocityRange x = true ↔
      cut i ≤ k ∧ k < cut (i + 1) := by
    intro i
    rw [velocity_hd _ (cut i) (cut (i + 1) - 1) rfl rfl x k hk]
    omega
  simp only [cond]
  classical
  have hex : ∃ j, k < cut j := ⟨n, by omega⟩
  have hpos : Nat.find hex ≠ 0 := by
    intro h
    have := Nat.find_spec hex
    rw [h, h0] at this; omega
  obtain ⟨i, hi⟩ := Nat.exists_eq_succ_of_ne_zero hpos
  refine ⟨i, ⟨?_, ?_, ?_⟩, ?_⟩
  · have := Nat.find_min' hex (show k < cut n by omega)
    omega
  · have := Nat.find_min hex (show i < Nat.find hex by omega)
    omega
  · have := Nat.find_spec hex
    rwa [hi] at this
  · rintro j ⟨-, hj1, hj2⟩
    rcases lt_trichotomy i j with h | h | h
    · have := hmono (show i + 1 ≤ j by omega)
      have h3 := Nat.find_spec hex
      rw [hi] at h3; simp only [Nat.succ_eq_add_one] at h3
      omega
    · exact h.symm
    · have := Nat.find_min' hex hj2
      omega

/-- **`lobend` and `hibend`: the pitch wheel lets a region sound exactly if its value lies between the last numbers written.**
`_partial`: the wheel at -8192 counts as -8191, and nothing is said about values between the numbers. -/
theorem bend_condition_partial (ops : List Opc) (lo hi : ℤ) (hlo : lastOf Opc.lobend? (-8191) ops = lo)
    (hhi : lastOf Opc.hibend? 8191 ops = hi) (s : Layer.State) (v : ℤ) :
    (Layer.registerPitchWheel (build ops) s (normalizeBend v)).pitchSwitched = true ↔
      lo ≤ max (min v 8191) (-8191) ∧ max (min v 8191) (-8191) ≤ hi := by
  have hr := build_bend ops
  rw [hlo, hhi] at hr
  rw [← bend_bendsAs v lo hi, ← hr]
  simp [Layer.registerPitchWheel]

/-- Two layers split at velocity 64, and a condition on a controller, exercise the theorems. -/
example : lastOf Opc.lovel? 0 [.lovel 1, .locc 1 20, .lovel 64, .hivel 100] = (64 : ℤ) ∧
    lastOf Opc.hivel? 127 [.lovel 1, .locc 1 20, .lovel 64, .hivel 100] = (100 : ℤ) ∧
    (64 ≤ seven 70 ∧ seven 70 ≤ 100) ∧ lastOf (Opc.locc? 1) 0 [.lovel 1, .locc 1 20, .lovel 64] = (20 : ℤ) ∧
    (∃ o ∈ [Opc.lovel 1, .locc 1 20, .lovel 64], (o.locc? 1).isSome ∨ (o.hicc? 1).isSome) :=
  ⟨rfl, rfl, by decide, rfl, .locc 1 20, by simp, .inl rfl⟩

example : (Layer.registerNoteOn (build [.lovel 64, .hivel 100]) Midi.init {} 60 (normalize7Bits 100) 0).2 = true ∧
    (Layer.registerNoteOn (build [.lovel 64, .hivel 100]) Midi.init {} 60 (normalize7Bits 101) 0).2 = false := by
  decide +kernel

/-- A velocity between two MIDI numbers, as `hdNoteOn` accepts it. -/
example : IsFloat (fl (100 / 127) + 1 / 2 ^ 20) ∧ 0 ≤ fl (100 / 127) + 1 / 2 ^ 20 ∧ fl (100 / 127) + 1 / 2 ^ 20 ≤ 1 :=
  ⟨⟨(fl (100 / 127) * 2 ^ 24).num + 16, -24, by decide +kernel, by norm_num, by decide +kernel⟩, by decide +kernel,
    by decide +kernel⟩

/-- C123 fails for bends at the low end: the wheel all the way down does not meet a range which ends there. -/
theorem bend_low_violated :
    ¬ ∀ (lo hi v : ℤ), -8192 ≤ v → v ≤ 8191 →
      ((Layer.registerPitchWheel (build [.lobend lo, .hibend hi]) {} (normalizeBend v)).pitchSwitched = true ↔
        lo ≤ v ∧ v ≤ hi) := by
  intro h
  have := (h (-8192) (-8192) (-8192) (by norm_num) (by norm_num)).mpr ⟨le_rfl, le_rfl⟩
  revert this
  decide +kernel

/-- C123 fails for high definition bends: between two numbers there are values which meet neither the range ending at the
first nor the one starting at the second, although the setting asks for the gap to be filled (`kFillGap` counts for MIDI
numbers only). -/
theorem bend_gap_violated :
    ∃ x, IsFloat x ∧ -1 ≤ x ∧ x ≤ 1 ∧
      (Layer.registerPitchWheel (build [.lobend (-8191), .hibend 0]) {} x).pitchSwitched = false ∧
      (Layer.registerPitchWheel (build [.lobend 1, .hibend 8191]) {} x).pitchSwitched = false :=
  ⟨1 / 2 ^ 14, ⟨1, -14, by norm_num, by norm_num, by norm_num⟩, by norm_num, by norm_num, by decide +kernel, by decide +kernel⟩

/-- C123 fails for upper bounds with a fraction: filling the gap adds a whole step, so that 64 meets `hivel=63.5`. -/
theorem fraction_violated :
    ¬ ∀ (hi : ℚ) (v : ℤ), 0 ≤ v → v ≤ 127 →
      (containsWithEnd (build [.hivel hi]).velocityRange (normalize7Bits v) = true ↔ (v : ℚ) ≤ hi) := by
  intro h
  have := (h (127 / 2) 64 (by norm_num) (by norm_num)).mp (by decide +kernel)
  norm_num at this

/-! ## C124 -/

lemma back_all : ∀ v : Fin 128, fl (normalize7Bits v * 127) = (v : ℕ) := by decide +kernel

lemma fl_natCast {n : ℕ} (h : n < 2 ^ 24) : fl (n : ℚ) = n := by
  have := fl_int (n := (n : ℤ)) (by rw [abs_of_nonneg (by omega)]; exact_mod_cast h)
  exact_mod_cast this

/-- **A MIDI value reads a curve exactly at the point of its number**: velocity curves, crossfades and modulations give the
values written for it, without interpolation and without loss. -/
theorem curve_point (points : ℕ → ℚ) (hf : ∀ i, IsFloat (points i)) (v : ℕ) (hv : v ≤ 127) :
    evalNormalized points (normalize7Bits v) = points v := by
  have hb : fl (normalize7Bits v * 127) = (v : ℚ) := by
    have := back_all ⟨v, by omega⟩; exact_mod_cast this
  unfold evalNormalized
  have hmm : max (min ((v : ℚ)) 127) 0 = v := by
    rw [min_eq_left (by exact_mod_cast hv), max_eq_left (by positivity)]
  simp only [hb, hmm, Int.floor_natCast, Int.toNat_natCast]
  rw [fl_natCast (by omega), sub_self, fl_zero, zero_mul, fl_zero, add_zero]
  exact fl_of_isFloat (hf v)

example : IsFloat (fl (1 / 3)) ∧ evalNormalized (fun i => fl (i / 300)) (normalize7Bits 100) = fl (1 / 3) :=
  ⟨fl_isFloat _, by decide +kernel⟩

/-- Relative error of one operation, for results that are not subnormal. -/
lemma fl_relative {y : ℚ} (h : y = 0 ∨ 2 ^ (-126 : ℤ) ≤ |y|) : |fl y - y| ≤ |y| / 2 ^ 24 := by
  rcases h with h | h
  · subst h; simp [fl_zero]
  · have hy : 0 < |y| := lt_of_lt_of_le (by positivity) h
    have he := fl_error y
    have hl := log_le hy
    have hb : binExp y = Int.log 2 |y| := by
      have : (-126 : ℤ) < Int.log 2 |y| + 1 := zpow_lt_iff.mp (lt_of_le_of_lt h lt_log)
      unfold binExp; omega
    have hu : ulp y * 2 ^ 23 = 2 ^ Int.log 2 |y| := by
      unfold ulp; rw [hb, ← zpow_natCast, ← zpow_add₀ (by norm_num)]; congr 1; push_cast; ring
    have : ulp y ≤ |y| / 2 ^ 23 := by rw [le_div_iff₀ (by norm_num), hu]; exact hl
    calc |fl y - y| ≤ ulp y / 2 := he
      _ ≤ |y| / 2 ^ 23 / 2 := by linarith
      _ = |y| / 2 ^ 24 := by ring

/-- **A percentage set by an opcode and asked for by message comes back as set, to 22 bits.**  `_partial`: not always to the
last bit. -/
theorem percent_back_partial (x : ℚ) (hx : 2 ^ (-100 : ℤ) ≤ |x|) :
    |denormalizeInput amplitude.flags (amplitude.read x) - x| ≤ |x| / 2 ^ 22 := by
  have e : denormalizeInput amplitude.flags (amplitude.read x) = fl (fl (x / 100) * 100) := by
    rw [amplitude, read_eq]; simp [denormalizeInput, normalizeInput]
  rw [e]
  have hx0 : 0 < |x| := lt_of_lt_of_le (by positivity) hx
  have small : (2 : ℚ) ^ (-126 : ℤ) ≤ |x| / 200 := by
    have : (2 : ℚ) ^ (-126 : ℤ) * 200 ≤ 2 ^ (-100 : ℤ) := by norm_num
    rw [le_div_iff₀ (by norm_num)]; exact this.trans hx
  clear hx
  have h1 : |fl (x / 100) - x / 100| ≤ |x / 100| / 2 ^ 24 := by
    apply fl_relative; right
    rw [abs_div, abs_of_pos (show (0 : ℚ) < 100 by norm_num)]
    exact small.trans (by linarith)
  rw [abs_div, abs_of_pos (show (0 : ℚ) < 100 by norm_num)] at h1
  set q := fl (x / 100) with hq
  have hqx : |q * 100 - x| ≤ |x| / 2 ^ 24 := by
    have : q * 100 - x = (q - x / 100) * 100 := by ring
    rw [this, abs_mul, abs_of_pos (show (0 : ℚ) < 100 by norm_num)]
    linarith
  have hup : |q * 100| ≤ |x| + |x| / 2 ^ 24 := by
    have := abs_add_le (q * 100 - x) x
    rw [sub_add_cancel] at this; linarith
  have hlow : |x| - |x| / 2 ^ 24 ≤ |q * 100| := by
    have := abs_add_le (x - q * 100) (q * 100)
    rw [sub_add_cancel, abs_sub_comm] at this; linarith
  have h2 : |fl (q * 100) - q * 100| ≤ |q * 100| / 2 ^ 24 := by
    apply fl_relative; right
    refine small.trans ?_
    norm_num at hlow ⊢; linarith
  have := abs_add_le (fl (q * 100) - q * 100) (q * 100 - x)
  rw [sub_add_sub_cancel] at this
  norm_num at this h2 hup hqx ⊢
  linarith

/-- C124 fails for percentages to the last bit: `amplitude=15` is reported as 15.000001. -/
theorem percent_back_violated : denormalizeInput amplitude.flags (amplitude.read 15) = 15 + 1 / 2 ^ 20 := by decide +kernel

end Verif.MidiValue
