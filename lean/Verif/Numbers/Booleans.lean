import Verif.Numbers.Props
import Verif.Opcode.Values

/-!
C144: the values of on/off opcodes.
-/
namespace Verif.Numbers
open Verif.Opcode

theorem lower_head {v : Text} {c : Char} {t w : Text} (hv : v = c :: t) (hc : toLower c = c) (hw : w.head? ≠ some c)
    (hlow : w.map toLower = w) : equalsIgnoreCase v w = false := by
  subst hv
  unfold equalsIgnoreCase
  rw [hlow]
  cases w with
  | nil => simp
  | cons d w =>
    have : d ≠ c := by simpa using hw
    simp only [List.map_cons, hc]
    simp [Ne.symm this]

/-- **The words**: `on` and `off`, in any case. -/
theorem words_read (v : Text) : (v.map toLower = "on".toList → readBoolean v = some true) ∧ (v.map toLower = "off".toList → readBoolean v = some false) := by
  have h1 : ("on".toList : Text).map toLower = "on".toList := by decide +kernel
  have h2 : ("off".toList : Text).map toLower = "off".toList := by decide +kernel
  have h3 : ("on".toList : Text) ≠ "off".toList := by decide +kernel
  unfold readBoolean equalsIgnoreCase
  rw [h1, h2]
  generalize ("on".toList : Text) = a at *
  generalize ("off".toList : Text) = b at *
  constructor
  · intro h; simp [h, h3]
  · intro h; simp [h]

theorem digit_lower {c : Char} (h : isDigit c = true) : toLower c = c := by
  unfold toLower
  rw [if_neg]
  rintro ⟨h1, _⟩
  simp only [isDigit, Bool.and_eq_true, decide_eq_true_eq] at h
  have := Char.le_trans h1 h.2
  exact absurd this (by decide)

theorem digit_space {c : Char} (h : isDigit c = true) : isSpace c = false := by
  simp only [isDigit, Bool.and_eq_true, decide_eq_true_eq] at h
  unfold isSpace
  simp only [Bool.or_eq_false_iff, beq_eq_false_iff_ne]
  refine ⟨⟨⟨⟨⟨?_, ?_⟩, ?_⟩, ?_⟩, ?_⟩, ?_⟩ <;> (rintro rfl; exact absurd h.1 (by decide))

theorem head_digit {d rest : Text} (hd : Digits d) (hne : d ≠ []) : ∀ c, (d ++ rest).head? = some c → isDigit c = true := by
  intro c hc
  cases d with
  | nil => exact absurd rfl hne
  | cons x d => simp at hc; subst hc; exact hd x (by simp)

theorem leadingInt_app {g d rest : Text} (hg : g ∈ signs) (hd : Digits d) (hne : d ≠ []) (hs : ∀ c, rest.head? = some c → isDigit c = false) :
    leadingInt (g ++ (d ++ rest)) = g ++ d := by
  have ht : (d ++ rest).takeWhile isDigit = d := (takeWhile_append_stop (p := isDigit) d rest hd hs).1
  have hh := head_digit (rest := rest) hd hne
  simp only [signs, List.mem_cons, List.not_mem_nil, or_false] at hg
  rcases hg with rfl | rfl | rfl
  · rw [List.nil_append, List.nil_append]
    unfold leadingInt
    split
    · rename_i t e; exact absurd (hh '+' (by rw [e]; rfl)) (by decide)
    · rename_i t e; exact absurd (hh '-' (by rw [e]; rfl)) (by decide)
    · exact ht
  · simp only [List.cons_append, List.nil_append, leadingInt, ht]
  · simp only [List.cons_append, List.nil_append, leadingInt, ht]

/-- **A whole number is read as written**, whatever follows it but a digit, if it fits 64 bits. -/
theorem integer_read (g d rest : Text) (hg : g ∈ signs) (hd : Digits d) (hne : d ≠ []) (hs : ∀ c, rest.head? = some c → isDigit c = false)
    (hfit : int64Min ≤ signOf g * (natVal d : Int) ∧ signOf g * (natVal d : Int) ≤ int64Max) :
    readLeadingInt (g ++ (d ++ rest)) = some (signOf g * (natVal d : Int)) := by
  unfold readLeadingInt
  rw [leadingInt_app hg hd hne hs]
  have hall : ∀ c ∈ g ++ d, isSpace c = false := by
    intro c hc
    rw [List.mem_append] at hc
    rcases hc with hc | hc
    · simp only [signs, List.mem_cons, List.not_mem_nil, or_false] at hg
      rcases hg with rfl | rfl | rfl
      · cases hc
      · rw [List.mem_singleton.1 hc]; decide
      · rw [List.mem_singleton.1 hc]; decide
    · exact digit_space (hd c hc)
  have htrim : trim (g ++ d) = g ++ d := trim_id
    (fun c hc => hall c (List.mem_of_head? hc)) (fun c hc => hall c (List.mem_reverse.1 (List.mem_of_head? hc)))
  have hhead : ∀ c, d.head? = some c → c ≠ '+' ∧ c ≠ '-' := by
    intro c hc
    have := digit_not_sign (hd c (List.mem_of_head? hc))
    exact ⟨this.1, this.2.1⟩
  unfold simpleAtoi
  rw [htrim, splitSign_app hg hhead]
  dsimp only
  rw [if_neg, if_neg]
  · have hv : (if decide (g = ['-']) = true then -(natVal d : Int) else natVal d) = signOf g * (natVal d : Int) := by
      unfold signOf
      by_cases e : g = ['-'] <;> simp [e]
    rw [hv, if_pos hfit]
  · rintro ⟨_, h⟩; exact absurd h (by decide)
  · rintro (h | h)
    · exact hne h
    · have : d.all isDigit = true := List.all_eq_true.2 hd
      rw [this] at h; cases h

/-- **The numbers**: a value that starts with a whole number is off if it is zero, and on otherwise. -/
theorem boolean_number (g d rest : Text) (hg : g ∈ signs) (hd : Digits d) (hne : d ≠ []) (hs : ∀ c, rest.head? = some c → isDigit c = false)
    (hfit : int64Min ≤ signOf g * (natVal d : Int) ∧ signOf g * (natVal d : Int) ≤ int64Max) :
    readBoolean (g ++ (d ++ rest)) = some (decide (natVal d ≠ 0)) := by
  have hoff : ∀ w : Text, w.map toLower = w → w.head? = some 'o' → equalsIgnoreCase (g ++ (d ++ rest)) w = false := by
    intro w h1 h2
    cases hv : g ++ (d ++ rest) with
    | nil => simp [hne] at hv
    | cons c t =>
      have hc : toLower c = c ∧ c ≠ 'o' := by
        simp only [signs, List.mem_cons, List.not_mem_nil, or_false] at hg
        rcases hg with rfl | rfl | rfl
        · have hdig : isDigit c = true := head_digit (rest := rest) hd hne c (by rw [List.nil_append] at hv; rw [hv]; rfl)
          exact ⟨digit_lower hdig, by rintro rfl; exact absurd hdig (by decide)⟩
        · simp only [List.cons_append, List.cons.injEq] at hv
          rw [← hv.1]; decide
        · simp only [List.cons_append, List.cons.injEq] at hv
          rw [← hv.1]; decide
      exact lower_head rfl hc.1 (by rw [h2]; simpa using Ne.symm hc.2) h1
  unfold readBoolean
  rw [if_neg (by rw [hoff _ (by decide +kernel) (by decide +kernel)]; simp), if_neg (by rw [hoff _ (by decide +kernel) (by decide +kernel)]; simp),
    integer_read g d rest hg hd hne hs hfit]
  simp only [Option.map_some, Option.some.injEq, decide_eq_decide]
  unfold signOf
  split <;> simp

/-- **Anything else** that is neither a word nor starts with a digit or a sign says nothing. -/
theorem boolean_none (c : Char) (rest : Text) (hw : ∀ w ∈ ["on".toList, "off".toList], (c :: rest).map toLower ≠ w) (hc : isDigit c = false) (hp : c ≠ '+') (hm : c ≠ '-') :
    readBoolean (c :: rest) = none := by
  have h1 : ("on".toList : Text).map toLower = "on".toList := by decide +kernel
  have h2 : ("off".toList : Text).map toLower = "off".toList := by decide +kernel
  have e1 := hw "on".toList (by simp)
  have e2 := hw "off".toList (by simp)
  have hl : leadingInt (c :: rest) = [] := by
    unfold leadingInt
    split
    · rename_i e; cases e; exact absurd rfl hp
    · rename_i e; cases e; exact absurd rfl hm
    · rw [List.takeWhile_cons, hc]; rfl
  unfold readBoolean equalsIgnoreCase readLeadingInt
  rw [h1, h2, hl]
  generalize ("on".toList : Text) = a at *
  generalize ("off".toList : Text) = b at *
  rw [if_neg (by simpa using e2), if_neg (by simpa using e1)]
  rfl

example : readBoolean "On".toList = some true ∧ readBoolean "OFF".toList = some false ∧ readBoolean "-1".toList = some true ∧
    readBoolean "00 off".toList = some false ∧ readBoolean "yes".toList = none := by decide +kernel

end Verif.Numbers
