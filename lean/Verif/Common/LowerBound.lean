import Mathlib.Data.List.Basic
import Mathlib.Data.List.TakeWhile

/-!
`std::lower_bound` as the standard library performs it (halving a range), used by `CCMap.h`,
`MidiState.cpp` and others through `absl::c_lower_bound`. Positions outside the vector yield `none`.
-/
namespace Verif.Common

variable {α : Type*}

/-- The halving loop on the range `[first, first+len)`; `lt x` stands for `comp(x, value)`. -/
def lbLoop (lt : α → Bool) (l : List α) (first len : Nat) : Option Nat :=
  if _h : 0 < len then
    let half := len / 2
    match l[first + half]? with
    | none => none
    | some x =>
      if lt x then lbLoop lt l (first + half + 1) (len - half - 1)
      else lbLoop lt l first half
  else some first
termination_by len
decreasing_by all_goals omega

/-- `std::lower_bound(begin, end, value, comp)`: offset of the result. -/
def lowerBound (lt : α → Bool) (l : List α) : Option Nat := lbLoop lt l 0 l.length

/-- The precondition of `std::lower_bound`: the range is partitioned. -/
def Partitioned (lt : α → Bool) (l : List α) : Prop :=
  l.Pairwise (fun a b => lt b = true → lt a = true)

theorem lbLoop_spec (lt : α → Bool) (l : List α) (hp : Partitioned lt l) :
    ∀ (len first : Nat), first + len ≤ l.length →
      (∀ i (h : i < l.length), i < first → lt l[i] = true) →
      (∀ i (h : i < l.length), first + len ≤ i → lt l[i] = false) →
      ∃ r, lbLoop lt l first len = some r ∧ r ≤ l.length ∧
        (∀ i (h : i < l.length), i < r → lt l[i] = true) ∧
        (∀ i (h : i < l.length), r ≤ i → lt l[i] = false) := by
  intro len
  induction len using Nat.strong_induction_on with
  | _ len ih =>
    intro first hle hlo hhi
    unfold lbLoop
    split
    · rename_i hpos
      have hlt : first + len / 2 < l.length := by omega
      simp only [List.getElem?_eq_getElem hlt]
      have hpw := List.pairwise_iff_getElem.mp hp
      split
      · rename_i hx
        apply ih (len - len / 2 - 1) (by omega) (first + len / 2 + 1) (by omega)
        · intro i h hi
          rcases Nat.lt_or_ge i (first + len / 2) with h' | h'
          · exact hpw i _ h hlt h' hx
          · have : i = first + len / 2 := by omega
            subst this; exact hx
        · intro i h hi; exact hhi i h (by omega)
      · rename_i hx
        apply ih (len / 2) (by omega) first (by omega) hlo
        intro i h hi
        rcases Nat.lt_or_ge (first + len / 2) i with h' | h'
        · by_contra hc
          exact hx (hpw _ i hlt h h' (by simpa using hc))
        · have : i = first + len / 2 := by omega
          subst this; simpa using hx
    · rename_i h0
      refine ⟨first, rfl, by omega, hlo, fun i h hi => hhi i h (by omega)⟩

/-- On a partitioned vector the result is the number of leading elements smaller than the value. -/
theorem lowerBound_eq (lt : α → Bool) (l : List α) (hp : Partitioned lt l) :
    lowerBound lt l = some (l.takeWhile lt).length := by
  obtain ⟨r, h1, h2, h3, h4⟩ := lbLoop_spec lt l hp l.length 0 (by omega) (by omega) (by intros; omega)
  unfold lowerBound
  rw [h1]
  congr 1
  clear h1 hp
  induction l generalizing r with
  | nil => simp at h2; simp [h2]
  | cons x tl ih =>
    rcases Nat.eq_zero_or_pos r with rfl | hr
    · have := h4 0 (by simp) (by omega)
      simp at this
      simp [this]
    · have hx := h3 0 (by simp) hr
      simp at hx
      simp only [List.takeWhile_cons, hx, if_true, List.length_cons]
      have := ih (r - 1) (by simp at h2; omega)
        (fun i h hi => h3 (i + 1) (by simpa using h) (by omega))
        (fun i h hi => h4 (i + 1) (by simpa using h) (by omega))
      omega

end Verif.Common
