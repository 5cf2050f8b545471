import Verif.Opcode.Model
import Mathlib.Tactic.Linarith

/-! C30: bounds of opcode values; C31: note names. -/
namespace Verif.Opcode

/-! ### C31: specification -/

/-- Semitones of the natural notes above C. -/
def naturals : List (Char × Int) := [('c', 0), ('d', 2), ('e', 4), ('f', 5), ('g', 7), ('a', 9), ('b', 11)]

/-- The seven letters in both cases. -/
inductive LetterOf : Char → Char → Prop
  | lower (c : Char) : c ∈ ['a', 'b', 'c', 'd', 'e', 'f', 'g'] → LetterOf c c
  | A : LetterOf 'A' 'a'
  | B : LetterOf 'B' 'b'
  | C : LetterOf 'C' 'c'
  | D : LetterOf 'D' 'd'
  | E : LetterOf 'E' 'e'
  | F : LetterOf 'F' 'f'
  | G : LetterOf 'G' 'g'

/-- Accidentals: black keys only, `#`/`♯` up, `b`/`♭` down. -/
inductive AccidentalOf : Char → Text → Int → Prop
  | natural (l : Char) : AccidentalOf l [] 0
  | sharp (l : Char) (s : Text) : l ∈ ['c', 'd', 'f', 'g', 'a'] → s = ['#'] ∨ s = sharpSign → AccidentalOf l s 1
  | flat (l : Char) (s : Text) : l ∈ ['d', 'e', 'g', 'a', 'b'] → s = ['b'] ∨ s = flatSign → AccidentalOf l s (-1)

/-- Decimal writing of a number. -/
def decimal (n : Nat) : Text := if n < 10 then [Char.ofNat (48 + n)] else decimal (n / 10) ++ [Char.ofNat (48 + n % 10)]
termination_by n
decreasing_by omega

/-- Decimal writing of an octave. -/
def octaveText (o : Int) : Text := if o < 0 then '-' :: decimal o.natAbs else decimal o.natAbs

/-! ### Lemmas -/

theorem digit_char (k : Nat) (h : k < 10) : isDigit (Char.ofNat (48 + k)) = true ∧ digitVal (Char.ofNat (48 + k)) = k := by
  have : ∀ k : Fin 10, isDigit (Char.ofNat (48 + k)) = true ∧ digitVal (Char.ofNat (48 + k)) = k := by decide
  exact this ⟨k, h⟩

theorem decimal_spec : ∀ n : Nat, natVal (decimal n) = n ∧ (∀ c ∈ decimal n, isDigit c = true) ∧ decimal n ≠ [] := by
  intro n
  induction n using Nat.strongRecOn with
  | ind n ih =>
    rw [decimal]
    by_cases h : n < 10
    · rw [if_pos h]
      obtain ⟨h1, h2⟩ := digit_char n h
      exact ⟨by simp [natVal, h2], by simp [h1], by simp⟩
    · rw [if_neg h]
      obtain ⟨h1, h2, _⟩ := ih (n / 10) (by omega)
      obtain ⟨h3, h4⟩ := digit_char (n % 10) (by omega)
      refine ⟨?_, ?_, by simp⟩
      · unfold natVal at h1 ⊢
        rw [List.foldl_append, h1]
        simp only [List.foldl_cons, List.foldl_nil, h4]
        omega
      · intro c hc
        rcases List.mem_append.mp hc with hc | hc
        · exact h2 c hc
        · simp only [List.mem_singleton] at hc
          exact hc ▸ h3

theorem digit_not_space {c : Char} (h : isDigit c = true) : isSpace c = false := by
  unfold isDigit at h
  simp only [Bool.and_eq_true, decide_eq_true_eq] at h
  unfold isSpace
  have : ∀ d : Char, (d < '0') → (c == d) = false := by
    intro d hd
    rw [beq_eq_false_iff_ne]
    rintro rfl
    exact absurd h.1 (by simpa using hd)
  simp [this _ (by decide : ' ' < '0'), this _ (by decide : '\r' < '0'), this _ (by decide : '\t' < '0'),
    this _ (by decide : '\n' < '0'), this _ (by decide : '\x0c' < '0'), this _ (by decide : '\x0b' < '0')]

theorem dropWhile_id {p : Char → Bool} {s : Text} (h : ∀ c, s.head? = some c → p c = false) : s.dropWhile p = s := by
  cases s with
  | nil => rfl
  | cons x s => exact List.dropWhile_cons_of_neg (by rw [h x rfl]; simp)

theorem trim_id {s : Text} (h : ∀ c, s.head? = some c → isSpace c = false) (h2 : ∀ c, s.reverse.head? = some c → isSpace c = false) :
    trim s = s := by
  unfold trim
  rw [dropWhile_id h, dropWhile_id h2, List.reverse_reverse]

theorem decimal_head {n : Nat} {c : Char} (h : (decimal n).head? = some c) : isDigit c = true :=
  (decimal_spec n).2.1 c (List.mem_of_mem_head? h)

theorem splitSign_digits {s : Text} (h : ∀ c, s.head? = some c → isDigit c = true) : splitSign s = (false, s) := by
  cases s with
  | nil => rfl
  | cons c s =>
    have hc := h c rfl
    unfold splitSign
    split
    · rename_i h'
      simp only [List.cons.injEq] at h'
      rw [h'.1] at hc; exact absurd hc (by decide)
    · rename_i h'
      simp only [List.cons.injEq] at h'
      rw [h'.1] at hc; exact absurd hc (by decide)
    · rfl

theorem reverse_head_mem {s : Text} {c : Char} (h : s.reverse.head? = some c) : c ∈ s :=
  List.mem_reverse.mp (List.mem_of_mem_head? h)

/-- The reader reads the decimal writing. -/
theorem atoi_octave (o : Int) (lo hi : Int) (h : lo ≤ o ∧ o ≤ hi) (hlo : lo < 0) : simpleAtoi lo hi (octaveText o) = some o := by
  obtain ⟨h1, h2, h3⟩ := decimal_spec o.natAbs
  have hall : (decimal o.natAbs).all isDigit = true := by rw [List.all_eq_true]; exact h2
  unfold simpleAtoi octaveText
  by_cases ho : o < 0
  · rw [if_pos ho]
    have ht : trim ('-' :: decimal o.natAbs) = '-' :: decimal o.natAbs := by
      apply trim_id
      · intro c hc; simp only [List.head?_cons, Option.some.injEq] at hc; subst hc; decide
      · intro c hc
        rcases List.mem_cons.mp (reverse_head_mem hc) with rfl | hm
        · decide
        · exact digit_not_space (h2 c hm)
    rw [ht]
    have hv : -(natVal (decimal o.natAbs) : Int) = o := by rw [h1]; omega
    have hl0 : lo ≠ 0 := by omega
    simp only [splitSign, h3, hall, hl0, hv, if_true, h]
    simp
  · rw [if_neg ho]
    have ht : trim (decimal o.natAbs) = decimal o.natAbs := by
      apply trim_id
      · intro c hc; exact digit_not_space (decimal_head hc)
      · intro c hc; exact digit_not_space (h2 c (reverse_head_mem hc))
    rw [ht, splitSign_digits (fun c hc => decimal_head hc)]
    have hv : (natVal (decimal o.natAbs) : Int) = o := by rw [h1]; omega
    simp only [h3, hall, hv]
    simpa using h

theorem octaveText_head {o : Int} {c : Char} (h : (octaveText o).head? = some c) : c = '-' ∨ isDigit c = true := by
  unfold octaveText at h
  split at h
  · left; simpa using h.symm
  · exact Or.inr (decimal_head h)

theorem letterOf_lower {c l : Char} (h : LetterOf c l) : toLower c = l ∧ l ∈ ['a', 'b', 'c', 'd', 'e', 'f', 'g'] := by
  cases h with
  | lower _ hc =>
    refine ⟨?_, hc⟩
    simp only [List.mem_cons, List.not_mem_nil, or_false] at hc
    rcases hc with rfl | rfl | rfl | rfl | rfl | rfl | rfl <;> decide
  | A => decide
  | B => decide
  | C => decide
  | D => decide
  | E => decide
  | F => decide
  | G => decide

theorem letterOffset_natural {l : Char} {k : Int} : letterOffset l = some k ↔ (l, k) ∈ naturals := by
  unfold letterOffset naturals
  simp only [List.mem_cons, Prod.mk.injEq, List.not_mem_nil, or_false]
  constructor
  · intro h
    split at h
    · simp only [Option.some.injEq] at h; subst_vars; simp
    · split at h
      · simp only [Option.some.injEq] at h; subst_vars; simp
      · split at h
        · simp only [Option.some.injEq] at h; subst_vars; simp
        · split at h
          · simp only [Option.some.injEq] at h; subst_vars; simp
          · split at h
            · simp only [Option.some.injEq] at h; subst_vars; simp
            · split at h
              · simp only [Option.some.injEq] at h; subst_vars; simp
              · split at h
                · simp only [Option.some.injEq] at h; subst_vars; simp
                · cases h
  · intro h
    rcases h with ⟨rfl, rfl⟩ | ⟨rfl, rfl⟩ | ⟨rfl, rfl⟩ | ⟨rfl, rfl⟩ | ⟨rfl, rfl⟩ | ⟨rfl, rfl⟩ | ⟨rfl, rfl⟩ <;> decide

/-- The accidental is recognized when what follows does not look like one. -/
theorem accidental_reads {l : Char} {s : Text} {k : Int} (h : AccidentalOf l s k) (rest : Text)
    (hr : ∀ c, rest.head? = some c → c = '-' ∨ isDigit c = true) : accidental l (s ++ rest) = some (k, rest) := by
  cases h with
  | natural =>
    unfold accidental
    simp only [List.nil_append]
    split
    · have := hr _ rfl; exact absurd this (by decide)
    · have := hr _ rfl; exact absurd this (by decide)
    · have := hr _ rfl; exact absurd this (by decide)
    · have := hr _ rfl; exact absurd this (by decide)
    · rfl
  | sharp _ hl hs =>
    rcases hs with rfl | rfl
    · simp only [accidental, List.cons_append, List.nil_append, hl, decide_true, if_true]
    · simp only [sharpSign, accidental, List.cons_append, List.nil_append, hl, decide_true, if_true]
  | flat _ hl hs =>
    rcases hs with rfl | rfl
    · simp only [accidental, List.cons_append, List.nil_append, hl, decide_true, if_true]
    · simp only [flatSign, accidental, List.cons_append, List.nil_append, hl, decide_true, if_true]

theorem accidental_inv {l : Char} {s rest : Text} {k : Int} (h : accidental l s = some (k, rest)) :
    ∃ a, AccidentalOf l a k ∧ s = a ++ rest := by
  unfold accidental at h
  simp only at h
  split at h
  · split at h
    · rename_i hs
      simp only [Option.some.injEq, Prod.mk.injEq] at h
      obtain ⟨rfl, rfl⟩ := h
      exact ⟨['#'], .sharp l _ (by simpa using hs) (Or.inl rfl), rfl⟩
    · cases h
  · split at h
    · rename_i hs
      simp only [Option.some.injEq, Prod.mk.injEq] at h
      obtain ⟨rfl, rfl⟩ := h
      exact ⟨sharpSign, .sharp l _ (by simpa using hs) (Or.inr rfl), rfl⟩
    · cases h
  · split at h
    · rename_i hs
      simp only [Option.some.injEq, Prod.mk.injEq] at h
      obtain ⟨rfl, rfl⟩ := h
      exact ⟨['b'], .flat l _ (by simpa using hs) (Or.inl rfl), rfl⟩
    · cases h
  · split at h
    · rename_i hs
      simp only [Option.some.injEq, Prod.mk.injEq] at h
      obtain ⟨rfl, rfl⟩ := h
      exact ⟨flatSign, .flat l _ (by simpa using hs) (Or.inr rfl), rfl⟩
    · cases h
  · simp only [Option.some.injEq, Prod.mk.injEq] at h
    obtain ⟨rfl, rfl⟩ := h
    exact ⟨[], .natural l, rfl⟩

theorem accidental_small {l : Char} {s : Text} {k : Int} (h : AccidentalOf l s k) : -1 ≤ k ∧ k ≤ 1 := by
  cases h <;> omega

theorem natural_small {l : Char} {k : Int} (h : (l, k) ∈ naturals) : 0 ≤ k ∧ k ≤ 11 := by
  simp only [naturals, List.mem_cons, Prod.mk.injEq, List.not_mem_nil, or_false] at h
  omega

/-! ### C31: theorems -/

/-- C31: every name of a key (letter in either case, accidental, octave with middle C = `c4` = 60) is read as that key, and
names beyond the 128 keys are rejected. Octaves are limited so that the code does not overflow (`note_name_violated`). -/
theorem note_name_partial (c l : Char) (base shift o : Int) (acc : Text) (hl : LetterOf c l) (hb : (l, base) ∈ naturals)
    (ha : AccidentalOf l acc shift) (ho : -178956970 ≤ o ∧ o ≤ 178956968) :
    readNoteValue (c :: (acc ++ octaveText o)) =
      some (if 0 ≤ 12 * (o + 1) + base + shift ∧ 12 * (o + 1) + base + shift < 128 then
        some (12 * (o + 1) + base + shift).toNat else none) := by
  have hs1 := accidental_small ha
  have hs2 := natural_small hb
  unfold readNoteValue
  simp only [(letterOf_lower hl).1, letterOffset_natural.mpr hb, accidental_reads ha _ (fun c hc => octaveText_head hc)]
  rw [atoi_octave o int32Min int32Max (by unfold int32Min int32Max; omega) (by unfold int32Min; omega)]
  have hr : octaveShift (base + shift) o = some (base + shift + (o + 1) * 12) := by
    unfold octaveShift intRange
    rw [if_pos (by unfold int32Min int32Max; omega)]
    show (if _ then _ else none).bind _ = _
    rw [if_pos (by unfold int32Min int32Max; omega)]
    show (if _ then _ else none) = _
    rw [if_pos (by unfold int32Min int32Max; omega)]
  simp only [hr]
  have he : base + shift + (o + 1) * 12 = 12 * (o + 1) + base + shift := by omega
  rw [he]
  by_cases hk : 0 ≤ 12 * (o + 1) + base + shift ∧ 12 * (o + 1) + base + shift < 128
  · rw [if_pos hk, if_neg (by omega)]
  · rw [if_neg hk, if_pos (by omega)]

/-- C31, conversely: whatever is read as a key is one of its names: letter, accidental allowed for this letter and octave. -/
theorem note_name_only (t : Text) (k : Nat) (h : readNoteValue t = some (some k)) :
    k < 128 ∧ ∃ c l base shift acc oct o, LetterOf c l ∧ (l, base) ∈ naturals ∧ AccidentalOf l acc shift ∧ t = c :: (acc ++ oct) ∧
      simpleAtoi int32Min int32Max oct = some o ∧ (k : Int) = 12 * (o + 1) + base + shift := by
  unfold readNoteValue at h
  split at h
  · cases h
  · rename_i c rest
    simp only at h
    split at h
    · cases h
    · rename_i base hb
      split at h
      · cases h
      · rename_i shift rest' ha
        split at h
        · cases h
        · rename_i o ho
          split at h
          · cases h
          · rename_i n hn
            simp only [Option.some.injEq] at h
            split at h
            · cases h
            · rename_i hk
              simp only [Option.some.injEq] at h
              obtain ⟨acc, hacc, hs⟩ := accidental_inv ha
              have hb' := letterOffset_natural.mp hb
              have hn' : n = base + shift + (o + 1) * 12 := by
                unfold octaveShift intRange at hn
                split at hn
                · simp only [Option.bind_eq_bind, Option.bind_some] at hn
                  split at hn
                  · simp only [Option.bind_some] at hn
                    split at hn
                    · simpa using hn.symm
                    · cases hn
                  · cases hn
                · cases hn
              refine ⟨by omega, c, toLower c, base, shift, acc, rest', o, ?_, hb', hacc, by rw [hs], ho, by omega⟩
              have hmem : toLower c ∈ ['a', 'b', 'c', 'd', 'e', 'f', 'g'] := by
                simp only [naturals, List.mem_cons, Prod.mk.injEq, List.not_mem_nil, or_false] at hb' ⊢
                tauto
              by_cases hu : 'A' ≤ c ∧ c ≤ 'Z'
              · have h65 : 65 ≤ c.toNat := hu.1
                have h90 : c.toNat ≤ 90 := hu.2
                have key : ∀ n : Fin 26, toLower (Char.ofNat (65 + n)) ∈ ['a', 'b', 'c', 'd', 'e', 'f', 'g'] → n.val < 7 := by decide
                have hc : c = Char.ofNat (65 + (c.toNat - 65)) := by
                  have : 65 + (c.toNat - 65) = c.toNat := by omega
                  rw [this, Char.ofNat_toNat]
                have h7 : c.toNat - 65 < 7 := key ⟨c.toNat - 65, by omega⟩ (by rw [← hc]; exact hmem)
                have key2 : ∀ n, n < 7 → LetterOf (Char.ofNat (65 + n)) (toLower (Char.ofNat (65 + n))) := by
                  intro n hn
                  match n, hn with
                  | 0, _ => exact LetterOf.A
                  | 1, _ => exact LetterOf.B
                  | 2, _ => exact LetterOf.C
                  | 3, _ => exact LetterOf.D
                  | 4, _ => exact LetterOf.E
                  | 5, _ => exact LetterOf.F
                  | 6, _ => exact LetterOf.G
                rw [hc]; exact key2 _ h7
              · have : toLower c = c := if_neg hu
                rw [this] at hmem ⊢
                exact .lower c hmem

/-- C31 fails: an empty value of a key opcode (`key=`) and large octaves are undefined behaviour. -/
theorem note_name_violated : readNoteValue [] = none ∧ readNoteValue "c178956970".toList = none := by decide +kernel

/-- Names of the same key. -/
example : ["c#4", "C#4", "db4", "Db4"].map (fun s => readNoteValue s.toList) = List.replicate 4 (some (some 61)) ∧
    readNoteValue "g9".toList = some (some 127) ∧ readNoteValue "g#9".toList = some none ∧
    readNoteValue "c-1".toList = some (some 0) ∧ readNoteValue "e#4".toList = some none := by decide +kernel

example : LetterOf 'D' 'd' ∧ ('d', (2 : Int)) ∈ naturals ∧ AccidentalOf 'd' flatSign (-1) ∧
    readNoteValue ('D' :: (flatSign ++ octaveText 4)) = some (some 61) :=
  ⟨.D, by decide, .flat _ _ (by decide) (Or.inr rfl), by decide +kernel⟩

/-! ### C30 -/

/-- C30: a value within the bounds is read unchanged. -/
theorem in_bounds_unchanged (tmin tmax : Int) (spec : Spec Int) (v : Int) (ht : tmin ≤ spec.lo ∧ spec.hi ≤ tmax)
    (h : spec.lo ≤ v ∧ v ≤ spec.hi) : transformInt tmin tmax spec v = some v := by
  unfold transformInt checkBounds
  rw [if_neg (by omega), if_neg (by omega)]
  simp only [Option.some.injEq]
  omega

/-- C30: beyond a bound: the bound when it is enforced, else nothing unless the bound is permissive, else the value itself
as far as the type can hold it. -/
theorem out_of_bounds (tmin tmax : Int) (spec : Spec Int) (v : Int) (hs : spec.lo ≤ spec.hi) :
    (v > spec.hi → transformInt tmin tmax spec v =
      if spec.enforceUpper then some spec.hi else if spec.permissiveUpper then some (min (max v tmin) tmax) else none) ∧
    (v < spec.lo → transformInt tmin tmax spec v =
      if spec.enforceLower then some spec.lo else if spec.permissiveLower then some (min (max v tmin) tmax) else none) := by
  constructor
  · intro h
    unfold transformInt checkBounds
    rw [if_pos h]
    cases spec.enforceUpper <;> cases spec.permissiveUpper <;> rfl
  · intro h
    unfold transformInt checkBounds
    rw [if_neg (by omega), if_pos h]
    cases spec.enforceLower <;> cases spec.permissiveLower <;> rfl

/-- What the reader may return: a value of the type, within each bound that is not permissive. -/
def Allowed (tmin tmax : Int) (spec : Spec Int) (x : Int) : Prop :=
  tmin ≤ x ∧ x ≤ tmax ∧ ((spec.permissiveUpper = false ∨ spec.enforceUpper = true) → x ≤ spec.hi) ∧
  ((spec.permissiveLower = false ∨ spec.enforceLower = true) → spec.lo ≤ x)

/-- C30: whatever the text, the value used for an integer opcode (default included) is allowed, when the call is defined
(see `note_name_violated`). -/
theorem int_value_allowed (tmin tmax : Int) (spec : Spec Int) (t : Text) (x : Int) (hs : spec.lo ≤ spec.hi)
    (ht : tmin ≤ spec.lo ∧ spec.hi ≤ tmax) (hd : Allowed tmin tmax spec spec.dflt)
    (h : readIntOr tmin tmax spec t = some x) : Allowed tmin tmax spec x := by
  have key : ∀ v y, transformInt tmin tmax spec v = some y → Allowed tmin tmax spec y := by
    intro v y hy
    unfold Allowed
    rcases lt_trichotomy v spec.lo with hv | hv | hv
    · rw [(out_of_bounds tmin tmax spec v hs).2 hv] at hy
      split at hy
      · simp only [Option.some.injEq] at hy; subst hy; omega
      · split at hy
        · rename_i h1 h2
          simp only [Option.some.injEq] at hy; subst hy
          refine ⟨by omega, by omega, fun _ => by omega, fun hh => ?_⟩
          rcases hh with hh | hh
          · rw [hh] at h2; cases h2
          · exact absurd hh h1
        · cases hy
    · rw [in_bounds_unchanged tmin tmax spec v ht (by omega)] at hy
      simp only [Option.some.injEq] at hy; subst hy; omega
    · by_cases hv2 : v ≤ spec.hi
      · rw [in_bounds_unchanged tmin tmax spec v ht (by omega)] at hy
        simp only [Option.some.injEq] at hy; subst hy; omega
      · rw [(out_of_bounds tmin tmax spec v hs).1 (by omega)] at hy
        split at hy
        · simp only [Option.some.injEq] at hy; subst hy; omega
        · split at hy
          · rename_i h1 h2
            simp only [Option.some.injEq] at hy; subst hy
            refine ⟨by omega, by omega, fun hh => ?_, fun _ => by omega⟩
            rcases hh with hh | hh
            · rw [hh] at h2; cases h2
            · exact absurd hh h1
          · cases hy
  unfold readIntOr at h
  rw [Option.map_eq_some_iff] at h
  obtain ⟨r, hr, hx⟩ := h
  cases r with
  | none => simp only [Option.getD_none] at hx; exact hx ▸ hd
  | some y =>
    simp only [Option.getD_some] at hx
    subst hx
    unfold readInt at hr
    split at hr
    · simp only [Option.some.injEq] at hr; exact key _ _ hr
    · split at hr
      · split at hr
        · cases hr
        · cases hr
        · simp only [Option.some.injEq] at hr; exact key _ _ hr
      · cases hr

/-- C30: integer values are defined for every text unless the opcode takes note names. -/
theorem int_value_defined (tmin tmax : Int) (spec : Spec Int) (t : Text) (h : spec.canBeNote = false) :
    ∃ x, readIntOr tmin tmax spec t = some x := by
  unfold readIntOr readInt
  split
  · exact ⟨_, rfl⟩
  · rw [h]; exact ⟨_, rfl⟩

/-- C30, float opcodes: values within the bounds are normalized, other values give the bound, nothing or, when permitted,
their own normalization. -/
theorem float_value (spec : Spec ℚ) (normalize : ℚ → ℚ) (v : ℚ) (hs : spec.lo ≤ spec.hi) :
    (spec.lo ≤ v → v ≤ spec.hi → transformFloat spec false normalize v = some (normalize v)) ∧
    (v > spec.hi → transformFloat spec false normalize v =
      if spec.enforceUpper then some spec.hi else if spec.permissiveUpper then some (normalize v) else none) ∧
    (v < spec.lo → transformFloat spec false normalize v =
      if spec.enforceLower then some spec.lo else if spec.permissiveLower then some (normalize v) else none) := by
  simp only [transformFloat, checkBounds, Bool.false_eq_true, if_false]
  refine ⟨fun h1 h2 => ?_, fun h => ?_, fun h => ?_⟩
  · rw [if_neg (not_lt.mpr h2), if_neg (not_lt.mpr h1)]
  · rw [if_pos h]
    cases spec.enforceUpper <;> cases spec.permissiveUpper <;> rfl
  · have h' : ¬ v > spec.hi := not_lt.mpr (le_of_lt (lt_of_lt_of_le h hs))
    rw [if_neg h', if_pos h]
    cases spec.enforceLower <;> cases spec.permissiveLower <;> rfl

theorem wrapPhase_range (v : ℚ) : 0 ≤ wrapPhase v ∧ wrapPhase v < 1 ∧ ∃ n : Int, wrapPhase v = v + n := by
  unfold wrapPhase
  simp only
  have f1 := Int.floor_le v
  have f2 := Int.lt_floor_add_one v
  have c1 := Int.le_ceil v
  have c2 := Int.ceil_lt_add_one v
  by_cases h : 0 ≤ v
  · rw [if_pos h]
    rw [if_neg (by linarith)]
    exact ⟨by linarith, by linarith, -⌊v⌋, by push_cast; ring⟩
  · rw [if_neg h]
    by_cases h2 : v - (⌈v⌉ : ℚ) < 0
    · rw [if_pos h2]
      exact ⟨by linarith, by linarith, -⌈v⌉ + 1, by push_cast; ring⟩
    · rw [if_neg h2]
      exact ⟨by linarith, by linarith, -⌈v⌉, by push_cast; ring⟩

/-- C30: a phase opcode (bounds 0 and 1, wrapped) takes any number and gives the phase in `[0, 1)` that differs from it by
whole turns. -/
theorem phase_value (spec : Spec ℚ) (v : ℚ) (h0 : spec.lo = 0) (h1 : spec.hi = 1) :
    ∃ w, transformFloat spec true id v = some w ∧ 0 ≤ w ∧ w < 1 ∧ ∃ n : Int, w = v + n := by
  obtain ⟨a, b, c⟩ := wrapPhase_range v
  refine ⟨wrapPhase v, ?_, a, b, c⟩
  simp only [transformFloat, checkBounds, if_true]
  rw [if_neg (by rw [h1]; linarith), if_neg (by rw [h0]; linarith)]
  rfl

/-- `loKey` (Defaults.cpp): default 0, bounds 0 to 127, notes allowed. -/
def loKey : Spec Int := { dflt := 0, lo := 0, hi := 127, canBeNote := true }

/-- `sampleQuality`-like enforced bounds. -/
def enforced : Spec Int := { dflt := 2, lo := 0, hi := 10, enforceLower := true, enforceUpper := true }

example : readIntOr 0 255 loKey "c4".toList = some 60 ∧ readIntOr 0 255 loKey "128".toList = some 0 ∧
    readIntOr 0 255 enforced "12".toList = some 10 ∧ readIntOr 0 255 enforced "-3x".toList = some 0 ∧
    readIntOr 0 255 enforced "word".toList = some 2 ∧ Allowed 0 255 loKey loKey.dflt := by
  refine ⟨by decide +kernel, by decide +kernel, by decide +kernel, by decide +kernel, by decide +kernel, by simp [Allowed, loKey]⟩

/-- C30 for a bounded opcode with normalization fails: the enforced bound is not normalized, so that a percentage (kept as
a fraction) of 150 with maximum 100 would be kept as 100, whereas 100 is kept as 1. No declared opcode combines the two. -/
theorem enforced_bound_not_normalized_violated :
    let spec : Spec ℚ := { dflt := 100, lo := 0, hi := 100, enforceUpper := true }
    transformFloat spec false (· / 100) 100 = some 1 ∧ transformFloat spec false (· / 100) 150 = some 100 := by
  decide +kernel

end Verif.Opcode
