import Verif.SwapAndPop.Lemmas

/-! C03: filter-removal keeps exactly the elements that should stay. -/
namespace Verif.SwapAndPop

variable {α : Type}

/-- Removing all matching elements: no out-of-range access, the vector is left with a permutation of
exactly the non-matching elements, the action ran once on each matching element, and the count
returned is the number of matching elements. -/
theorem swapAndPopAll_exact (p : α → Bool) (l : List α) :
    ∃ l' acted, swapAndPopAll p l = some (l', l.countP p, acted) ∧
      l'.Perm (l.filter (fun x => !p x)) ∧ acted.Perm (l.filter p) := by
  obtain ⟨kept, rest, a', h1, h2, h3, h4⟩ := loopAll_spec p l.length [] l [] [] rfl
  refine ⟨kept, a', ?_, h2, h3⟩
  unfold swapAndPopAll
  simp only [List.nil_append, List.append_nil, List.length_nil, Nat.zero_add] at h1 h4
  rw [h1]
  have : rest.length = l.countP p := by
    rw [h4, h3.length_eq, List.countP_eq_length_filter]; rfl
  simp [this]

example : swapAndPopAll (fun n => n % 2 == 0) [2, 1, 4, 3, 6] = some ([3, 1], 3, [2, 6, 4]) := by
  simp [swapAndPopAll, loopAll, swapAt]

/-- Removing the first match: exactly that element leaves, all others stay; without a match the vector
is unchanged. -/
theorem swapAndPopFirst_exact (p : α → Bool) (l : List α) :
    (swapAndPopFirst p l = some (l, none) ∧ ∀ x ∈ l, p x = false) ∨
    ∃ a x b l', l = a ++ x :: b ∧ (∀ y ∈ a, p y = false) ∧ p x = true ∧
      swapAndPopFirst p l = some (l', some x) ∧ l'.Perm (a ++ b) := by
  simpa [swapAndPopFirst] using loopFirst_spec p l [] (by simp)

example : swapAndPopFirst (fun n => n == 4) [2, 4, 1, 4] = some ([2, 4, 1], some 4) := by
  simp [swapAndPopFirst, loopFirst, swapAt]

end Verif.SwapAndPop
