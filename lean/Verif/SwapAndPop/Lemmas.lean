import Verif.SwapAndPop.Model
import Mathlib.Data.List.Perm.Basic
import Mathlib.Data.List.Basic

/-! Helper lemmas for `SwapAndPop`. -/
namespace Verif.SwapAndPop

variable {α : Type}

theorem swapAt_split (a b : α) (pre mid post : List α) :
    swapAt (pre ++ a :: (mid ++ b :: post)) pre.length (pre.length + 1 + mid.length) =
      some (pre ++ b :: (mid ++ a :: post)) := by
  have h1 : (pre ++ a :: (mid ++ b :: post))[pre.length]? = some a := by simp
  have h2 : (pre ++ a :: (mid ++ b :: post))[pre.length + 1 + mid.length]? = some b := by
    rw [List.getElem?_append_right (by omega)]
    have : pre.length + 1 + mid.length - pre.length = mid.length + 1 := by omega
    rw [this, List.getElem?_cons_succ, List.getElem?_append_right (by omega)]
    simp
  simp only [swapAt, h1, h2]
  congr 1
  rw [List.set_append_right _ _ (by omega), List.set_append_right _ _ (by omega)]
  have : pre.length + 1 + mid.length - pre.length = mid.length + 1 := by omega
  simp [this, List.set_append_right]

theorem swapAt_self (a : α) (pre post : List α) :
    swapAt (pre ++ a :: post) pre.length pre.length = some (pre ++ a :: post) := by
  simp [swapAt]

theorem loopAll_spec (p : α → Bool) : ∀ (n : Nat) (pre mid post acted : List α), mid.length = n →
    ∃ kept rest a', loopAll p (pre ++ mid ++ post) pre.length (pre.length + mid.length) acted =
        some (pre ++ kept ++ rest, pre.length + kept.length, acted ++ a') ∧
      kept.Perm (mid.filter (fun x => !p x)) ∧ a'.Perm (mid.filter p) ∧
      rest.length = a'.length + post.length := by
  intro n
  induction n with
  | zero =>
    intro pre mid post acted h
    obtain rfl := List.length_eq_zero_iff.mp h
    refine ⟨[], post, [], ?_, by simp, by simp, by simp⟩
    unfold loopAll
    simp
  | succ n ih =>
    intro pre mid post acted h
    match mid, h with
    | x :: tl, h =>
      have htl : tl.length = n := by simpa using h
      have hx : (pre ++ x :: tl ++ post)[pre.length]? = some x := by simp
      unfold loopAll
      rw [dif_pos (by simp)]
      simp only [hx]
      by_cases hp : p x = true
      · simp only [hp, if_true]
        rcases List.eq_nil_or_concat tl with rfl | ⟨tl', y, rfl⟩
        · have : pre.length + [x].length - 1 = pre.length := by simp
          rw [this]
          have e : pre ++ [x] ++ post = pre ++ x :: post := by simp
          rw [e, swapAt_self]
          refine ⟨[], x :: post, [x], ?_, by simp [hp], by simp [hp], by simp; omega⟩
          simp only
          unfold loopAll
          simp
        · simp only [List.concat_eq_append] at htl ⊢
          have e1 : pre ++ x :: (tl' ++ [y]) ++ post = pre ++ x :: (tl' ++ y :: post) := by simp
          have e2 : pre.length + (x :: (tl' ++ [y])).length - 1 = pre.length + 1 + tl'.length := by
            simp; omega
          rw [e1, e2, swapAt_split]
          obtain ⟨kept, rest, a', h1, h2, h3, h4⟩ := ih pre (y :: tl') (x :: post) (acted ++ [x])
            (by simpa using htl)
          refine ⟨kept, rest, x :: a', ?_, ?_, ?_, ?_⟩
          · simp only
            have e3 : pre ++ y :: tl' ++ x :: post = pre ++ y :: (tl' ++ x :: post) := by simp
            have e4 : pre.length + (y :: tl').length = pre.length + 1 + tl'.length := by simp; omega
            rw [e3, e4] at h1
            rw [h1]; simp
          · refine h2.trans ?_
            simp only [List.filter_cons, List.filter_append, hp]
            by_cases hy : p y = true <;> simp [hy]
            exact (List.perm_append_comm (l₁ := [y]) (l₂ := tl'.filter fun x => !p x))
          · simp only [List.filter_cons, List.filter_append, hp, if_true]
            refine List.Perm.cons _ (h3.trans ?_)
            by_cases hy : p y = true <;> simp [hy, List.filter_cons]
            exact (List.perm_append_comm (l₁ := [y]) (l₂ := tl'.filter p))
          · simp at h4 ⊢; omega
      · have hp' : p x = false := by simpa using hp
        simp only [hp', Bool.false_eq_true, if_false]
        obtain ⟨kept, rest, a', h1, h2, h3, h4⟩ := ih (pre ++ [x]) tl post acted htl
        refine ⟨x :: kept, rest, a', ?_, ?_, ?_, h4⟩
        · have e1 : pre ++ [x] ++ tl ++ post = pre ++ x :: tl ++ post := by simp
          have e2 : (pre ++ [x]).length = pre.length + 1 := by simp
          have e3 : pre.length + 1 + tl.length = pre.length + (x :: tl).length := by simp; omega
          rw [e1, e2, e3] at h1
          rw [h1]
          have e4 : pre.length + 1 + kept.length = pre.length + (x :: kept).length := by simp; omega
          rw [e4]; simp
        · simp [List.filter_cons, hp', h2]
        · simp [List.filter_cons, hp', h3]

theorem loopFirst_spec (p : α → Bool) : ∀ (post pre : List α), (∀ x ∈ pre, p x = false) →
    (loopFirst p (pre ++ post) pre.length = some (pre ++ post, none) ∧ ∀ x ∈ post, p x = false) ∨
    ∃ a x b l', post = a ++ x :: b ∧ (∀ y ∈ a, p y = false) ∧ p x = true ∧
      loopFirst p (pre ++ post) pre.length = some (l', some x) ∧ l'.Perm (pre ++ a ++ b) := by
  intro post
  induction post with
  | nil =>
    intro pre _
    left
    unfold loopFirst
    simp
  | cons x tl ih =>
    intro pre hpre
    have hx : (pre ++ x :: tl)[pre.length]? = some x := by simp
    unfold loopFirst
    rw [dif_pos (by simp)]
    simp only [hx]
    by_cases hp : p x = true
    · right
      simp only [hp, if_true]
      rcases List.eq_nil_or_concat tl with rfl | ⟨tl', y, rfl⟩
      · have : (pre ++ [x]).length - 1 = pre.length := by simp
        rw [this, swapAt_self]
        exact ⟨[], x, [], pre, by simp, by simp, hp, by simp, by simp⟩
      · simp only [List.concat_eq_append]
        have e2 : (pre ++ x :: (tl' ++ [y])).length - 1 = pre.length + 1 + tl'.length := by
          simp; omega
        rw [e2, swapAt_split]
        refine ⟨[], x, tl' ++ [y], pre ++ y :: tl', by simp, by simp, hp, ?_, ?_⟩
        · simp only [Option.some.injEq, Prod.mk.injEq, and_true]
          have : pre ++ y :: (tl' ++ [x]) = (pre ++ y :: tl') ++ [x] := by simp
          rw [this, List.dropLast_concat]
        · simp only [List.append_nil]
          exact List.Perm.append_left _ (List.perm_append_comm (l₁ := [y]) (l₂ := tl'))
    · have hp' : p x = false := by simpa using hp
      simp only [hp', Bool.false_eq_true, if_false]
      have e1 : pre ++ [x] ++ tl = pre ++ x :: tl := by simp
      have e2 : (pre ++ [x]).length = pre.length + 1 := by simp
      rcases ih (pre ++ [x]) (by
        intro z hz
        rcases List.mem_append.mp hz with h | h
        · exact hpre z h
        · simp at h; rw [h]; exact hp') with ⟨h1, h2⟩ | ⟨a, z, b, l', h1, h2, h3, h4, h5⟩
      · left
        rw [e1, e2] at h1
        exact ⟨h1, by intro z hz; rcases List.mem_cons.mp hz with rfl | hz; exacts [hp', h2 z hz]⟩
      · right
        rw [e1, e2] at h4
        refine ⟨x :: a, z, b, l', by simp [h1], ?_, h3, h4, by simpa using h5⟩
        intro w hw; rcases List.mem_cons.mp hw with rfl | hw; exacts [hp', h2 w hw]

end Verif.SwapAndPop
