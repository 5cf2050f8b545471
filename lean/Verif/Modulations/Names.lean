import Verif.Modulations.Model
import Verif.Loader.Keys
import Verif.Opcode.Names
import Verif.Opcode.Values

/-! How the names of modulation opcodes are seen. -/
namespace Verif.Modulations
open Verif.Opcode

/-- Small letters and underscores. -/
def isLetter (c : Char) : Bool := (decide ('a' ≤ c) && decide (c ≤ 'z')) || c == '_'

/-- A word of small letters and underscores. -/
def Word (s : Text) : Prop := ∀ c ∈ s, isLetter c = true

instance (s : Text) : Decidable (Word s) := by unfold Word; infer_instance

theorem letter_facts {c : Char} (h : isLetter c = true) : isDigit c = false ∧ isSpace c = false ∧ c ≠ '&' := by
  have hc : c = '_' ∨ ('a' ≤ c ∧ c ≤ 'z') := by
    simp only [isLetter, Bool.or_eq_true, Bool.and_eq_true, decide_eq_true_eq, beq_iff_eq] at h
    tauto
  rcases hc with rfl | ⟨h1, h2⟩
  · decide
  · have a1 : 97 ≤ c.toNat := h1
    have a2 : c.toNat ≤ 122 := h2
    refine ⟨?_, ?_, ?_⟩
    · simp only [isDigit, Bool.and_eq_false_iff, decide_eq_false_iff_not]
      right
      intro h3
      have a3 : c.toNat ≤ 57 := h3
      omega
    · cases hs : isSpace c with
      | false => rfl
      | true =>
        exfalso
        have : c = ' ' ∨ c = '\r' ∨ c = '\t' ∨ c = '\n' ∨ c = '\x0c' ∨ c = '\x0b' := by
          simpa [isSpace, or_assoc] using hs
        rcases this with rfl | rfl | rfl | rfl | rfl | rfl <;> exact absurd a1 (by decide)
    · rintro rfl
      exact absurd a1 (by decide)

/-- Words and numbers in turn. -/
def write : List (Text × Nat) → Text → Text
  | [], tail => tail
  | (l, n) :: ps, tail => l ++ (decimal n ++ write ps tail)

/-- The words, with a mark for each number. -/
def marked : List (Text × Nat) → Text → Text
  | [], tail => tail
  | (l, _) :: ps, tail => l ++ '&' :: marked ps tail

/-- The numbers are separated by words, and not too large. -/
def Plain (ps : List (Text × Nat)) (tail : Text) : Prop :=
  (∀ q ∈ ps, q.1 ≠ [] ∧ Word q.1 ∧ q.2 < 65536) ∧ Word tail

theorem write_assemble : ∀ (ps : List (Text × Nat)) (tail : Text), write ps tail = assemble (ps.map (fun q => (q.1, decimal q.2))) tail
  | [], _ => rfl
  | (l, n) :: ps, tail => by
    rw [write, write_assemble ps tail]; rfl

theorem marked_letters : ∀ (ps : List (Text × Nat)) (tail : Text), marked ps tail = lettersOf (ps.map (fun q => (q.1, decimal q.2))) tail
  | [], _ => rfl
  | (l, n) :: ps, tail => by
    rw [marked, marked_letters ps tail]; rfl

theorem plain_pieces : ∀ (ps : List (Text × Nat)) (tail : Text), Plain ps tail → ∀ b, Pieces b (ps.map (fun q => (q.1, decimal q.2)))
  | [], _, _, _ => trivial
  | (l, n) :: ps, tail, h, b => by
    obtain ⟨h1, h2, h3⟩ := h.1 (l, n) List.mem_cons_self
    refine ⟨Or.inr h1, fun c hc => (letter_facts (h2 c hc)).1, (decimal_spec n).2.2, (decimal_spec n).2.1, ?_⟩
    exact plain_pieces ps tail ⟨fun q hq => h.1 q (List.mem_cons_of_mem _ hq), h.2⟩ false

theorem write_chars : ∀ (ps : List (Text × Nat)) (tail : Text), Plain ps tail → ∀ c ∈ write ps tail, isSpace c = false ∧ c ≠ '&'
  | [], tail, h, c, hc => ⟨(letter_facts (h.2 c hc)).2.1, (letter_facts (h.2 c hc)).2.2⟩
  | (l, n) :: ps, tail, h, c, hc => by
    obtain ⟨h1, h2, h3⟩ := h.1 (l, n) List.mem_cons_self
    rw [write, List.mem_append, List.mem_append] at hc
    rcases hc with hc | hc | hc
    · exact ⟨(letter_facts (h2 c hc)).2.1, (letter_facts (h2 c hc)).2.2⟩
    · have hd := (decimal_spec n).2.1 c hc
      exact ⟨digit_not_space hd, by rintro rfl; revert hd; decide⟩
    · exact write_chars ps tail ⟨fun q hq => h.1 q (List.mem_cons_of_mem _ hq), h.2⟩ c hc

theorem trim_write (ps : List (Text × Nat)) (tail : Text) (h : Plain ps tail) : trim (write ps tail) = write ps tail :=
  trim_id (fun c hc => (write_chars ps tail h c (List.mem_of_mem_head? hc)).1)
    (fun c hc => (write_chars ps tail h c (reverse_head_mem hc)).1)

theorem letterOnly_write (ps : List (Text × Nat)) (tail : Text) (h : Plain ps tail) :
    letterOnlyName (trim (write ps tail)) = marked ps tail := by
  rw [marked_letters]
  refine (opcode_name_partial (ps.map (fun q => (q.1, decimal q.2))) tail (write ps tail) (plain_pieces ps tail h true)
    (fun c hc => (letter_facts (h.2 c hc)).1) ?_ ?_ ?_).2.2
  · rw [trim_write ps tail h, write_assemble]
  · intro q hq
    obtain ⟨r, hr, rfl⟩ := List.mem_map.mp hq
    rw [(decimal_spec r.2).1]
    exact (h.1 r hr).2.2
  · rw [← write_assemble]
    intro hc
    exact (write_chars ps tail h '&' hc).2 rfl

theorem filter_word {s : Text} (h : Word s) : s.filter (· ≠ '&') = s := by
  rw [List.filter_eq_self]
  intro c hc
  simpa using (letter_facts (h c hc)).2.2

theorem seenFrom_write : ∀ (ps : List (Text × Nat)) (tail : Text), Plain ps tail → ∀ p : Text × List Nat,
    Loader.seenFrom (write ps tail) p = (p.1 ++ marked ps tail, p.2 ++ ps.map (·.2))
  | [], tail, h, p => by
    have ht := takeWhile_append_stop (p := fun c => !isDigit c) tail [] (fun c hc => by simp [(letter_facts (h.2 c hc)).1]) (by simp)
    rw [List.append_nil] at ht
    unfold Loader.seenFrom
    simp only [write]
    split
    · rw [ht.1, filter_word h.2]; simp [marked]
    · rename_i heq; rw [ht.2] at heq; cases heq
  | (l, n) :: ps, tail, h, p => by
    obtain ⟨h1, h2, h3⟩ := h.1 (l, n) List.mem_cons_self
    have hrest : Plain ps tail := ⟨fun q hq => h.1 q (List.mem_cons_of_mem _ hq), h.2⟩
    obtain ⟨d1, d2, d3⟩ := decimal_spec n
    have e1 := takeWhile_append_stop (p := fun c => !isDigit c) l (decimal n ++ write ps tail)
      (fun c hc => by simp [(letter_facts (h2 c hc)).1]) (by
      intro c hc
      cases hd : decimal n with
      | nil => exact absurd hd d3
      | cons x d =>
        rw [hd] at hc d2
        simp only [List.cons_append, List.head?_cons, Option.some.injEq] at hc
        simp [← hc, d2 x (by simp)])
    have e2 := takeWhile_append_stop (p := isDigit) (decimal n) (write ps tail) d2 (by
      rw [write_assemble]
      exact assemble_head (plain_pieces ps tail hrest false) (fun c hc => (letter_facts (h.2 c hc)).1))
    unfold Loader.seenFrom
    simp only [write]
    split
    · rename_i heq
      rw [e1.2] at heq
      exact absurd (List.append_eq_nil_iff.mp heq).1 d3
    · rename_i x rest heq
      rw [e1.2] at heq
      rw [← heq, e2.1, e2.2, e1.1, d1, filter_word h2, if_pos (by omega), seenFrom_write ps tail hrest, Nat.mod_eq_of_lt (by omega)]
      simp [marked]

/-- Such a name is seen as its words and its numbers. -/
theorem seen_write (ps : List (Text × Nat)) (tail : Text) (h : Plain ps tail) : Loader.seen (write ps tail) = (marked ps tail, ps.map (·.2)) := by
  unfold Loader.seen
  rw [trim_write ps tail h, seenFrom_write ps tail h]
  simp

end Verif.Modulations
