import Verif.Base64.Model
import Mathlib.Data.List.Basic

/-! C04: Base64 embedded samples decode to the encoded bytes. -/
namespace Verif.Base64

/-! ### Specification: the standard encoder (RFC 4648), by groups of three bytes. -/

/-- The RFC 4648 alphabet: `A-Z a-z 0-9 + /`. -/
def letter (v : Nat) : Nat :=
  if v < 26 then 65 + v else if v < 52 then 97 + (v - 26) else if v < 62 then 48 + (v - 52)
  else if v = 62 then 43 else 47

/-- Characters of the encoding without the final `=` signs. -/
def encodeBody : List Nat → List Nat
  | a :: b :: c :: rest =>
    letter (a / 4) :: letter (a % 4 * 16 + b / 16) :: letter (b % 16 * 4 + c / 64) :: letter (c % 64) ::
      encodeBody rest
  | [a, b] => [letter (a / 4), letter (a % 4 * 16 + b / 16), letter (b % 16 * 4)]
  | [a] => [letter (a / 4), letter (a % 4 * 16)]
  | [] => []

/-- Number of `=` signs for `n` bytes. -/
def padCount (n : Nat) : Nat := (3 - n % 3) % 3

/-- The complete standard encoding. -/
def encode (bytes : List Nat) : List Nat := encodeBody bytes ++ List.replicate (padCount bytes.length) 61

/-- White space: blank, tab, line feed, carriage return. -/
def white : List Nat := [32, 9, 10, 13]

/-! ### Lemmas -/

theorem isSpace_iff (c : Nat) : isSpace c = decide (c ∈ white) := by
  rw [Bool.eq_iff_iff]
  simp [isSpace, white]
  omega

theorem value_foreign (c : Nat) (h : ∀ v, v < 64 → c ≠ letter v) : value c = none := by
  unfold value
  split
  · have := h (c - 65) (by omega); unfold letter at this; split at this <;> omega
  · split
    · have := h (c - 71) (by omega)
      unfold letter at this
      rw [if_neg (by omega), if_pos (by omega)] at this
      omega
    · split
      · have := h (c + 4) (by omega)
        unfold letter at this
        rw [if_neg (by omega), if_neg (by omega), if_pos (by omega)] at this
        omega
      · split
        · exact absurd (by decide : (43 : Nat) = letter 62) (by have := h 62 (by omega); omega)
        · split
          · exact absurd (by decide : (47 : Nat) = letter 63) (by have := h 63 (by omega); omega)
          · rfl

theorem value_letter : ∀ v, v < 64 → value (letter v) = some v ∧ isSpace (letter v) = false ∧ letter v ≠ 61 := by
  intro v hv
  have : ∀ v : Fin 64, value (letter v) = some v.1 ∧ isSpace (letter v) = false ∧ letter v ≠ 61 := by decide
  exact this ⟨v, hv⟩

theorem loop_filter (s : St) (t : List Nat) : loop s t = loop s (t.filter (fun c => !isSpace c)) := by
  induction t generalizing s with
  | nil => rfl
  | cons c cs ih =>
    by_cases h : isSpace c = true
    · simp only [loop, h, if_true, List.filter_cons, Bool.not_true, Bool.false_eq_true, if_false]; exact ih s
    · have h' : isSpace c = false := by simpa using h
      simp only [loop, h', Bool.false_eq_true, if_false, List.filter_cons, Bool.not_false, if_true]
      cases stepChar s c with
      | none => rfl
      | some s' => exact ih s'

theorem or_eq_add (i x v : Nat) (hv : v < 2 ^ i) : (x * 2 ^ i) ||| v = x * 2 ^ i + v := by
  rw [Nat.mul_comm, Nat.two_pow_add_eq_or_of_lt hv]

theorem loop_letter (s : St) (v : Nat) (hv : v < 64) (rest : List Nat) :
    loop s (letter v :: rest) =
      (if s.position + 1 = 4 then
        loop { temp := 0, position := 0, decoded := s.decoded ++
          [((s.temp ||| v) >>> 16) &&& 0xFF, ((s.temp ||| v) >>> 8) &&& 0xFF, (s.temp ||| v) &&& 0xFF] } rest
       else loop { s with temp := (s.temp ||| v) <<< 6, position := s.position + 1 } rest) := by
  obtain ⟨h1, h2, -⟩ := value_letter v hv
  simp only [loop, h2, Bool.false_eq_true, if_false, stepChar, h1]
  by_cases hp : s.position + 1 = 4
  · simp only [hp, if_true]
  · simp only [hp, if_false]

theorem and255 (n : Nat) : n &&& 0xFF = n % 256 := Nat.and_two_pow_sub_one_eq_mod n 8

theorem loop_encodeBody (bytes : List Nat) (hb : ∀ b ∈ bytes, b < 256) (dec : List Nat) :
    ∃ s, loop { temp := 0, position := 0, decoded := dec } (encodeBody bytes) = some s ∧ finish s = dec ++ bytes := by
  fun_induction encodeBody bytes generalizing dec with
  | case1 a b c rest ih =>
    have ha : a < 256 := hb a (by simp)
    have hbb : b < 256 := hb b (by simp)
    have hc : c < 256 := hb c (by simp)
    obtain ⟨s, h1, h2⟩ := ih (fun x hx => hb x (by simp [hx])) (dec ++ [a, b, c])
    refine ⟨s, ?_, by simpa using h2⟩
    rw [loop_letter _ _ (by omega)]
    simp only [Nat.zero_add, Nat.reduceEqDiff, if_false, Nat.zero_or, Nat.shiftLeft_eq]
    rw [loop_letter _ _ (by omega)]
    simp only [Nat.reduceAdd, Nat.reduceEqDiff, if_false, Nat.shiftLeft_eq]
    rw [loop_letter _ _ (by omega)]
    simp only [Nat.reduceAdd, Nat.reduceEqDiff, if_false, Nat.shiftLeft_eq]
    rw [loop_letter _ _ (by omega)]
    simp only [Nat.reduceAdd, if_true]
    rw [or_eq_add 6 _ _ (by omega), or_eq_add 6 _ _ (by omega), or_eq_add 6 _ _ (by omega)]
    simp only [and255, Nat.shiftRight_eq_div_pow]
    have e1 : (((a / 4 * 2 ^ 6 + (a % 4 * 16 + b / 16)) * 2 ^ 6 + (b % 16 * 4 + c / 64)) * 2 ^ 6 + c % 64) / 2 ^ 16 % 256 = a := by omega
    have e2 : (((a / 4 * 2 ^ 6 + (a % 4 * 16 + b / 16)) * 2 ^ 6 + (b % 16 * 4 + c / 64)) * 2 ^ 6 + c % 64) / 2 ^ 8 % 256 = b := by omega
    have e3 : (((a / 4 * 2 ^ 6 + (a % 4 * 16 + b / 16)) * 2 ^ 6 + (b % 16 * 4 + c / 64)) * 2 ^ 6 + c % 64) % 256 = c := by omega
    rw [e1, e2, e3]
    exact h1
  | case2 a b =>
    have ha : a < 256 := hb a (by simp)
    have hbb : b < 256 := hb b (by simp)
    rw [loop_letter _ _ (by omega)]
    simp only [Nat.zero_add, Nat.reduceEqDiff, if_false, Nat.zero_or, Nat.shiftLeft_eq]
    rw [loop_letter _ _ (by omega)]
    simp only [Nat.reduceAdd, Nat.reduceEqDiff, if_false, Nat.shiftLeft_eq]
    rw [loop_letter _ _ (by omega)]
    simp only [Nat.reduceAdd, Nat.reduceEqDiff, if_false, Nat.shiftLeft_eq]
    rw [or_eq_add 6 _ _ (by omega), or_eq_add 6 _ _ (by omega)]
    refine ⟨_, rfl, ?_⟩
    simp only [finish, and255, Nat.shiftRight_eq_div_pow]
    have e1 : ((a / 4 * 2 ^ 6 + (a % 4 * 16 + b / 16)) * 2 ^ 6 + b % 16 * 4) * 2 ^ 6 / 2 ^ 16 % 256 = a := by omega
    have e2 : ((a / 4 * 2 ^ 6 + (a % 4 * 16 + b / 16)) * 2 ^ 6 + b % 16 * 4) * 2 ^ 6 / 2 ^ 8 % 256 = b := by omega
    rw [e1, e2]
  | case3 a =>
    have ha : a < 256 := hb a (by simp)
    rw [loop_letter _ _ (by omega)]
    simp only [Nat.zero_add, Nat.reduceEqDiff, if_false, Nat.zero_or, Nat.shiftLeft_eq]
    rw [loop_letter _ _ (by omega)]
    simp only [Nat.reduceAdd, Nat.reduceEqDiff, if_false, Nat.shiftLeft_eq]
    rw [or_eq_add 6 _ _ (by omega)]
    refine ⟨_, rfl, ?_⟩
    simp only [finish, and255, Nat.shiftRight_eq_div_pow]
    have e1 : (a / 4 * 2 ^ 6 + a % 4 * 16) * 2 ^ 6 / 2 ^ 10 % 256 = a := by omega
    rw [e1]
  | case4 => exact ⟨_, rfl, by simp [finish]⟩

theorem encodeBody_no_eq (bytes : List Nat) (hb : ∀ b ∈ bytes, b < 256) : ∀ c ∈ encodeBody bytes, c ≠ 61 := by
  fun_induction encodeBody bytes with
  | case1 a b c rest ih =>
    have ha : a < 256 := hb a (by simp)
    have hbb : b < 256 := hb b (by simp)
    have hc : c < 256 := hb c (by simp)
    have := ih (fun x hx => hb x (by simp [hx]))
    simp only [List.mem_cons, forall_eq_or_imp]
    exact ⟨(value_letter _ (by omega)).2.2, (value_letter _ (by omega)).2.2, (value_letter _ (by omega)).2.2,
      (value_letter _ (by omega)).2.2, this⟩
  | case2 a b =>
    have ha : a < 256 := hb a (by simp)
    have hbb : b < 256 := hb b (by simp)
    simp only [List.mem_cons, forall_eq_or_imp, List.not_mem_nil, false_imp_iff, implies_true, and_true]
    exact ⟨(value_letter _ (by omega)).2.2, (value_letter _ (by omega)).2.2, (value_letter _ (by omega)).2.2⟩
  | case3 a =>
    have ha : a < 256 := hb a (by simp)
    simp only [List.mem_cons, forall_eq_or_imp, List.not_mem_nil, false_imp_iff, implies_true, and_true]
    exact ⟨(value_letter _ (by omega)).2.2, (value_letter _ (by omega)).2.2⟩
  | case4 => simp

/-- With at most two `=` signs behind a text without any, exactly these are stripped. -/
theorem padding_replicate (t : List Nat) (k : Nat) (hk : k ≤ 2) (ht : ∀ c ∈ t, c ≠ 61) :
    padding (t ++ List.replicate k 61) = k := by
  unfold padding
  have last1 : ∀ (l : List Nat) (a : Nat), (l ++ [a])[(l ++ [a]).length - 1]? = some a := by
    intro l a; simp
  have hno : ∀ i : Nat, t[i]? ≠ some 61 := by
    intro i h
    exact ht 61 (List.mem_of_getElem? h) rfl
  match k, hk with
  | 0, _ => simp [hno]
  | 1, _ =>
    simp only [List.replicate_one, last1]
    have h : ¬ ((t ++ [61]).length ≥ 2 ∧ (t ++ [61])[(t ++ [61]).length - 2]? = some 61) := by
      rintro ⟨hl, hq⟩
      have : 0 < t.length := by simp at hl; omega
      rw [List.getElem?_append_left (by simp; omega)] at hq
      exact hno _ hq
    rw [if_neg h]
    simp
  | 2, _ =>
    have e : t ++ List.replicate 2 61 = t ++ [61] ++ [61] := by simp [List.replicate]
    rw [e]
    have h1 := last1 (t ++ [61]) 61
    have h2 : (t ++ [61] ++ [61])[(t ++ [61] ++ [61]).length - 2]? = some 61 := by
      rw [List.getElem?_append_left (by simp)]
      simp
    rw [h1, h2]
    simp

theorem padCount_le (n : Nat) : padCount n ≤ 2 := by unfold padCount; omega

theorem decode_text (t : List Nat) (k : Nat) (hk : k ≤ 2) (ht : ∀ c ∈ t, c ≠ 61) :
    decode (t ++ List.replicate k 61) = ((loop {} t).map finish).getD [] := by
  unfold decode
  split
  · rename_i h
    have : t = [] := by
      have := List.isEmpty_iff.mp h
      simp at this; exact this.1
    subst this
    simp [loop, finish]
  · rw [padding_replicate t k hk ht]
    have : (t ++ List.replicate k 61).length - k = t.length := by simp
    rw [this, List.take_left]
    cases loop {} t <;> simp

/-! ### Properties -/

/-- Round trip: any text whose non-space characters are the standard encoding, with spaces, tabs and
line breaks anywhere before the final `=` signs, decodes to the bytes.
What is missing for the full claim: white space *after* the `=` signs, see
`base64_trailing_space_violated`. -/
theorem base64_roundtrip_partial (bytes : List Nat) (hb : ∀ b ∈ bytes, b < 256) (text : List Nat)
    (ht : text.filter (fun c => decide (c ∉ white)) = encodeBody bytes) :
    decode (text ++ List.replicate (padCount bytes.length) 61) = bytes := by
  have hfun : (fun c => decide (c ∉ white)) = (fun c => !isSpace c) := by funext c; rw [isSpace_iff]; simp
  rw [hfun] at ht
  have hno : ∀ c ∈ text, c ≠ 61 := by
    intro c hc h
    subst h
    have : (61 : Nat) ∈ encodeBody bytes := by
      rw [← ht]; simp [hc, isSpace]
    exact encodeBody_no_eq bytes hb 61 this rfl
  rw [decode_text text _ (padCount_le _) hno, loop_filter, ht]
  obtain ⟨s, h1, h2⟩ := loop_encodeBody bytes hb []
  have : loop {} (encodeBody bytes) = some s := h1
  rw [this]
  simpa using h2

/-- In particular the plain encoding without white space round-trips. -/
theorem base64_roundtrip_plain (bytes : List Nat) (hb : ∀ b ∈ bytes, b < 256) :
    decode (encode bytes) = bytes := by
  apply base64_roundtrip_partial bytes hb
  have hfun : (fun c => decide (c ∉ white)) = (fun c => !isSpace c) := by funext c; rw [isSpace_iff]; simp
  rw [hfun]
  rw [List.filter_eq_self]
  fun_induction encodeBody bytes with
  | case1 a b c rest ih =>
    have ha : a < 256 := hb a (by simp)
    have hbb : b < 256 := hb b (by simp)
    have hc : c < 256 := hb c (by simp)
    have := ih (fun x hx => hb x (by simp [hx]))
    simp only [List.mem_cons, forall_eq_or_imp, Bool.not_eq_true'] at this ⊢
    exact ⟨(value_letter _ (by omega)).2.1, (value_letter _ (by omega)).2.1, (value_letter _ (by omega)).2.1,
      (value_letter _ (by omega)).2.1, this⟩
  | case2 a b =>
    have ha : a < 256 := hb a (by simp)
    have hbb : b < 256 := hb b (by simp)
    simp only [List.mem_cons, forall_eq_or_imp, List.not_mem_nil, false_imp_iff, implies_true, and_true, Bool.not_eq_true']
    exact ⟨(value_letter _ (by omega)).2.1, (value_letter _ (by omega)).2.1, (value_letter _ (by omega)).2.1⟩
  | case3 a =>
    have ha : a < 256 := hb a (by simp)
    simp only [List.mem_cons, forall_eq_or_imp, List.not_mem_nil, false_imp_iff, implies_true, and_true, Bool.not_eq_true']
    exact ⟨(value_letter _ (by omega)).2.1, (value_letter _ (by omega)).2.1⟩
  | case4 => simp

/-- "Man", with a line break inside; "M" with padding ("TQ=="). -/
example : decode ([84, 87, 10, 70, 117] ++ List.replicate (padCount 3) 61) = [77, 97, 110] ∧
    [84, 87, 10, 70, 117].filter (fun c => decide (c ∉ white)) = encodeBody [77, 97, 110] ∧
    encode [77] = [84, 81, 61, 61] := by decide

/-- The full claim fails: "TQ==" followed by a line break decodes to nothing although the same text
without the line break decodes to `M`. -/
theorem base64_trailing_space_violated :
    decode (encode [77] ++ [10]) = [] ∧ decode (encode [77]) = [77] := by decide

theorem loop_none_of_foreign (t : List Nat) (c : Nat) (hc : c ∈ t) (h1 : isSpace c = false) (h2 : value c = none) :
    ∀ s, loop s t = none := by
  induction t with
  | nil => simp at hc
  | cons x tl ih =>
    intro s
    rcases List.mem_cons.mp hc with rfl | hc
    · simp [loop, h1, stepChar, h2]
    · unfold loop
      split
      · exact ih hc s
      · split
        · rfl
        · exact ih hc _

/-- A character outside the alphabet (other than white space and `=`) anywhere in the text makes the
whole text decode to nothing. -/
theorem base64_rejects_foreign (t : List Nat) (c : Nat) (hc : c ∈ t) (hw : c ∉ white)
    (hl : ∀ v, v < 64 → c ≠ letter v) (h3 : c ≠ 61) : decode t = [] := by
  have h1 : isSpace c = false := by rw [isSpace_iff]; simpa using hw
  have h2 := value_foreign c hl
  unfold decode
  split
  · rfl
  · rename_i hne
    by_cases hm : c ∈ t.take (t.length - padding t)
    · rw [loop_none_of_foreign _ c hm h1 h2]
    · -- the character is among the stripped ones: then it is the last, and an `=` remains before it
      have hpad : padding t ≤ 2 := by unfold padding; split <;> split <;> omega
      obtain ⟨i, hi, hget⟩ := List.getElem_of_mem hc
      have hge : t.length - padding t ≤ i := by
        by_contra hlt
        apply hm
        rw [List.mem_take_iff_getElem]
        exact ⟨i, by omega, hget⟩
      have hq : (61 : Nat) ∈ t.take (t.length - padding t) := by
        have hi' : t[i]? = some c := by rw [List.getElem?_eq_getElem hi, hget]
        by_cases hL : t.length ≥ 1 ∧ t[t.length - 1]? = some 61
        · by_cases hM : t.length ≥ 2 ∧ t[t.length - 2]? = some 61
          · -- both are `=`; c would be one of them
            exfalso
            have hp : padding t = 2 := by simp only [padding, if_pos hL, if_pos hM]
            rcases (by omega : i = t.length - 1 ∨ i = t.length - 2) with h | h
            · rw [h, hL.2] at hi'; exact h3 (Option.some.inj hi').symm
            · rw [h, hM.2] at hi'; exact h3 (Option.some.inj hi').symm
          · exfalso
            have hp : padding t = 1 := by simp only [padding, if_pos hL, if_neg hM]
            have h : i = t.length - 1 := by omega
            rw [h, hL.2] at hi'; exact h3 (Option.some.inj hi').symm
        · by_cases hM : t.length ≥ 2 ∧ t[t.length - 2]? = some 61
          · have hp : padding t = 1 := by simp only [padding, if_neg hL, if_pos hM]
            rw [hp, List.mem_take_iff_getElem]
            have hlt : t.length - 2 < t.length := by omega
            refine ⟨t.length - 2, by omega, ?_⟩
            have := hM.2
            rw [List.getElem?_eq_getElem hlt] at this
            exact Option.some.inj this
          · exfalso
            have hp : padding t = 0 := by simp only [padding, if_neg hL, if_neg hM]
            omega
      rw [loop_none_of_foreign _ 61 hq (by decide) (by decide)]

example : decode [84, 87, 33, 70, 117] = [] ∧ (∀ v, v < 64 → 33 ≠ letter v) ∧ 33 ∉ white := by decide

end Verif.Base64
