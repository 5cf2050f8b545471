import Verif.Midi.Model
import Mathlib.Tactic.Linarith

/-! Helper lemmas about event vectors. -/
namespace Verif.Midi

open Verif.Common

/-- Strictly increasing delays. -/
def Sorted (l : EventVector) : Prop := l.Pairwise (fun a b => a.delay < b.delay)

/-- Sorted insertion, structurally. -/
def ins (d : Int) (v : ℚ) : EventVector → EventVector
  | [] => [⟨d, v⟩]
  | e :: t => if e.delay < d then e :: ins d v t
              else if e.delay = d then ⟨d, v⟩ :: t else ⟨d, v⟩ :: e :: t

theorem sorted_partitioned {l : EventVector} (h : Sorted l) (d : Int) : Partitioned (before d) l := by
  refine List.Pairwise.imp ?_ h
  intro a b hab hb
  simp only [before, decide_eq_true_eq] at *
  omega

theorem lowerBound_sorted {l : EventVector} (h : Sorted l) (d : Int) :
    lowerBound (before d) l = some (l.takeWhile (before d)).length := lowerBound_eq _ _ (sorted_partitioned h d)

theorem insertEvent_eq {l : EventVector} (h : Sorted l) (d : Int) (v : ℚ) :
    insertEvent? l d v = some (ins d v l) ∧ insertEvent l d v = ins d v l := by
  have key : insertEvent? l d v = some (ins d v l) := by
    unfold insertEvent?
    rw [lowerBound_sorted h d]
    simp only
    clear h
    induction l with
    | nil => simp [ins]
    | cons e t ih =>
      by_cases he : e.delay < d
      · have hb : before d e = true := by simpa [before] using he
        simp only [List.takeWhile_cons, hb, if_true, List.length_cons, List.getElem?_cons_succ,
          List.insertIdx_succ_cons, List.set_cons_succ, ins, if_pos he]
        generalize (t.takeWhile (before d)).length = n at *
        cases ht : t[n]? with
        | none =>
          rw [ht] at ih
          simp only [Option.some.injEq] at ih ⊢
          rw [ih]
        | some e' =>
          rw [ht] at ih
          simp only at ih ⊢
          split at ih <;> rename_i hc
          · rw [if_pos hc]
            simp only [Option.some.injEq] at ih ⊢
            rw [ih]
          · rw [if_neg hc]
            simp only [Option.some.injEq] at ih ⊢
            rw [ih]
      · have hb : before d e = false := by simpa [before] using he
        simp only [List.takeWhile_cons, hb, Bool.false_eq_true, if_false, List.length_nil, List.getElem?_cons_zero,
          List.insertIdx_zero, List.set_cons_zero, ins, if_neg he]
        by_cases hd : e.delay = d
        · subst hd; simp
        · simp [hd]
  exact ⟨key, by simp [insertEvent, key]⟩

theorem ins_mem {d : Int} {v : ℚ} {l : EventVector} {e : Event} (h : e ∈ ins d v l) : e = ⟨d, v⟩ ∨ e ∈ l := by
  induction l with
  | nil => simp [ins] at h; exact Or.inl h
  | cons a t ih =>
    simp only [ins] at h
    split at h
    · rcases List.mem_cons.mp h with rfl | h
      · right; simp
      · rcases ih h with h | h
        · exact Or.inl h
        · right; simp [h]
    · split at h
      · rcases List.mem_cons.mp h with h | h
        · exact Or.inl h
        · right; simp [h]
      · rcases List.mem_cons.mp h with h | h
        · exact Or.inl h
        · right; exact h

theorem ins_sorted {l : EventVector} (h : Sorted l) (d : Int) (v : ℚ) : Sorted (ins d v l) := by
  induction l with
  | nil => simp [ins, Sorted]
  | cons e t ih =>
    obtain ⟨h1, h2⟩ := List.pairwise_cons.mp h
    simp only [ins]
    split
    · rename_i he
      refine List.pairwise_cons.mpr ⟨?_, ih h2⟩
      intro a ha
      rcases ins_mem ha with rfl | ha
      · exact he
      · exact h1 a ha
    · rename_i he
      split
      · rename_i hd
        refine List.pairwise_cons.mpr ⟨fun a ha => ?_, h2⟩
        have := h1 a ha
        simp only; omega
      · rename_i hd
        refine List.pairwise_cons.mpr ⟨fun a ha => ?_, h⟩
        rcases List.mem_cons.mp ha with rfl | ha
        · simp only; omega
        · have := h1 a ha
          simp only; omega

theorem ins_ne_nil (d : Int) (v : ℚ) (l : EventVector) : ins d v l ≠ [] := by
  cases l with
  | nil => simp [ins]
  | cons e t => simp only [ins]; split <;> [simp; (split <;> simp)]

theorem mem_ins_iff {l : EventVector} (h : Sorted l) (d : Int) (v : ℚ) (e : Event) :
    e ∈ ins d v l ↔ e = ⟨d, v⟩ ∨ (e.delay ≠ d ∧ e ∈ l) := by
  induction l with
  | nil => simp [ins]
  | cons a t ih =>
    obtain ⟨h1, h2⟩ := List.pairwise_cons.mp h
    have IH := ih h2
    simp only [ins]
    by_cases ha : a.delay < d
    · rw [if_pos ha, List.mem_cons, List.mem_cons, IH]
      constructor
      · rintro (rfl | h | h)
        · right; exact ⟨by omega, Or.inl rfl⟩
        · exact Or.inl h
        · right; exact ⟨h.1, Or.inr h.2⟩
      · rintro (h | ⟨h, rfl | h'⟩)
        · exact Or.inr (Or.inl h)
        · exact Or.inl rfl
        · exact Or.inr (Or.inr ⟨h, h'⟩)
    · rw [if_neg ha]
      have hlt : ∀ b ∈ t, b.delay ≠ d := fun b hb => by have := h1 b hb; omega
      by_cases hd : a.delay = d
      · rw [if_pos hd, List.mem_cons, List.mem_cons]
        constructor
        · rintro (h | h)
          · exact Or.inl h
          · exact Or.inr ⟨hlt e h, Or.inr h⟩
        · rintro (h | ⟨hne, rfl | h'⟩)
          · exact Or.inl h
          · exact absurd hd hne
          · exact Or.inr h'
      · rw [if_neg hd, List.mem_cons]
        constructor
        · rintro (h | h)
          · exact Or.inl h
          · refine Or.inr ⟨?_, h⟩
            rcases List.mem_cons.mp h with rfl | h
            · exact hd
            · exact hlt e h
        · rintro (h | ⟨_, h⟩)
          · exact Or.inl h
          · exact Or.inr h

end Verif.Midi
