import Verif.Range.Model

/-! C01: value ranges stay well formed and membership is the interval. -/
namespace Verif.Range

variable {α : Type*} [LinearOrder α]

theorem step_wf (r : R α) (op : Op α) (h : r.start ≤ r.stop) : (step r op).start ≤ (step r op).stop := by
  cases op with
  | assign s e => simp [step, mk]
  | setStart s =>
    simp only [step, setStart, Bool.true_and, decide_eq_true_eq]
    split
    · exact le_refl _
    · rename_i hs; exact not_lt.mp hs
  | setEnd e =>
    simp only [step, setEnd, Bool.true_and, decide_eq_true_eq]
    split
    · exact le_refl _
    · rename_i hs; exact not_lt.mp hs
  | expandTo v =>
    simp only [step, expandTo]
    split
    · rename_i hv; exact le_of_lt (lt_of_le_of_lt h hv)
    · split
      · rename_i hv; exact le_of_lt (lt_of_lt_of_le hv h)
      · exact h

/-- Every range reachable by construction, bound setting and expansion has `low ≤ high`. -/
theorem range_wellformed (s e : α) (ops : List (Op α)) :
    (run (mk true s e) ops).start ≤ (run (mk true s e) ops).stop := by
  have key : ∀ (ops : List (Op α)) (r : R α), r.start ≤ r.stop → (run r ops).start ≤ (run r ops).stop := by
    intro ops
    induction ops with
    | nil => intro r h; exact h
    | cons op ops ih => intro r h; exact ih _ (step_wf r op h)
  exact key ops _ (by simp [mk])

example : run (mk true (5 : Int) 2) [.setEnd 1, .expandTo 9, .setStart 20] = ⟨20, 20⟩ := by decide

/-- The bound set last is the one requested; the other bound moves only as far as needed. -/
theorem range_setStart_spec (s e x : α) (ops : List (Op α)) :
    let r := run (mk true s e) ops
    (setStart true r x).start = x ∧ (setStart true r x).stop = max r.stop x := by
  intro r
  simp only [setStart, Bool.true_and, decide_eq_true_eq]
  split
  · rename_i h; exact ⟨rfl, (max_eq_right (le_of_lt h)).symm⟩
  · rename_i h; exact ⟨rfl, (max_eq_left (not_lt.mp h)).symm⟩

example : setStart true (run (mk true (1 : Int) 4) []) 7 = ⟨7, 7⟩ := by decide

theorem range_setEnd_spec (s e x : α) (ops : List (Op α)) :
    let r := run (mk true s e) ops
    (setEnd true r x).stop = x ∧ (setEnd true r x).start = min r.start x := by
  intro r
  simp only [setEnd, Bool.true_and, decide_eq_true_eq]
  split
  · rename_i h; exact ⟨rfl, (min_eq_right (le_of_lt h)).symm⟩
  · rename_i h; exact ⟨rfl, (min_eq_left (not_lt.mp h)).symm⟩

example : setEnd true (run (mk true (1 : Int) 4) []) 0 = ⟨0, 0⟩ := by decide

/-- `expandTo` yields the smallest range containing the old one and the value. -/
theorem range_expandTo_spec (r : R α) (h : r.start ≤ r.stop) (v : α) :
    (expandTo r v).start = min r.start v ∧ (expandTo r v).stop = max r.stop v := by
  unfold expandTo
  split
  · rename_i hv
    exact ⟨(min_eq_left (le_of_lt (lt_of_le_of_lt h hv))).symm, (max_eq_right (le_of_lt hv)).symm⟩
  · rename_i hv
    split
    · rename_i hv2; exact ⟨(min_eq_right (le_of_lt hv2)).symm, (max_eq_left (not_lt.mp hv)).symm⟩
    · rename_i hv2; exact ⟨(min_eq_left (not_lt.mp hv2)).symm, (max_eq_left (not_lt.mp hv)).symm⟩

example : expandTo (⟨2, 5⟩ : R Int) 9 = ⟨2, 9⟩ := by decide

/-- Membership is exactly the (closed, half-open) interval, for checked and unchecked ranges. -/
theorem range_membership (r : R α) (v : α) :
    (containsWithEnd r v = true ↔ r.start ≤ v ∧ v ≤ r.stop) ∧
    (contains r v = true ↔ r.start ≤ v ∧ v < r.stop) := by
  simp [containsWithEnd, contains]

/-- Clamping: the result is in the range, and values of the range are fixed. -/
theorem range_clamp_spec (r : R α) (h : r.start ≤ r.stop) (v : α) :
    containsWithEnd r (clamp r v) = true ∧ (containsWithEnd r v = true → clamp r v = v) := by
  constructor
  · simp [containsWithEnd, clamp, h]
  · simp only [containsWithEnd, clamp, Bool.and_eq_true, decide_eq_true_eq]
    rintro ⟨h1, h2⟩
    rw [min_eq_left h2, max_eq_left h1]

example : clamp (⟨2, 5⟩ : R Int) 9 = 5 ∧ containsWithEnd (⟨2, 5⟩ : R Int) 5 = true := by decide

/-- Shrinking with an overlapping interval is intersection, and keeps the range well formed. -/
theorem range_shrink_partial (r : R α) (s e : α) (h : r.start ≤ r.stop)
    (ho : min s e ≤ r.stop) (ho' : r.start ≤ max s e) :
    let r' := shrinkIfSmaller true r s e
    r'.start ≤ r'.stop ∧
      ∀ v, containsWithEnd r' v = true ↔ containsWithEnd r v = true ∧ min s e ≤ v ∧ v ≤ max s e := by
  have key : shrinkIfSmaller true r s e = ⟨max r.start (min s e), min r.stop (max s e)⟩ := by
    unfold shrinkIfSmaller
    by_cases hse : s > e
    · simp only [hse, decide_true, Bool.and_self, if_true]
      rw [min_eq_right (le_of_lt hse), max_eq_left (le_of_lt hse)]
      congr 1
      · split
        · rename_i hh; exact (max_eq_right (le_of_lt hh)).symm
        · rename_i hh; exact (max_eq_left (not_lt.mp hh)).symm
      · split
        · rename_i hh; exact (min_eq_right (le_of_lt hh)).symm
        · rename_i hh; exact (min_eq_left (not_lt.mp hh)).symm
    · simp only [hse, decide_false, Bool.and_false, Bool.false_eq_true, if_false]
      have hse' := not_lt.mp hse
      rw [min_eq_left hse', max_eq_right hse']
      congr 1
      · split
        · rename_i hh; exact (max_eq_right (le_of_lt hh)).symm
        · rename_i hh; exact (max_eq_left (not_lt.mp hh)).symm
      · split
        · rename_i hh; exact (min_eq_right (le_of_lt hh)).symm
        · rename_i hh; exact (min_eq_left (not_lt.mp hh)).symm
  simp only [key, containsWithEnd, Bool.and_eq_true, decide_eq_true_eq, ge_iff_le]
  refine ⟨?_, fun v => ?_⟩
  · rw [max_le_iff, le_min_iff, le_min_iff]
    exact ⟨⟨h, ho'⟩, ho, min_le_max⟩
  · rw [max_le_iff, le_min_iff]
    exact ⟨fun ⟨⟨a, b⟩, c, d⟩ => ⟨⟨a, c⟩, b, d⟩, fun ⟨⟨a, c⟩, b, d⟩ => ⟨⟨a, b⟩, c, d⟩⟩

example : shrinkIfSmaller true (⟨0, 10⟩ : R Int) 12 4 = ⟨4, 10⟩ := by decide

/-- Full statement that fails: shrinking with a disjoint interval leaves `low > high`
even though the range is of the self-checking kind (which still reports itself valid). -/
theorem range_shrink_violated :
    ∃ (r : R Int) (s e : Int), r.start ≤ r.stop ∧
      ¬ (shrinkIfSmaller true r s e).start ≤ (shrinkIfSmaller true r s e).stop ∧
      isValid true (shrinkIfSmaller true r s e) = true :=
  ⟨⟨0, 10⟩, 20, 30, by decide⟩

end Verif.Range
