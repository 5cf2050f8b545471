import Verif.Power.Model
import Mathlib.Tactic.Linarith
import Mathlib.Tactic.Ring
import Mathlib.Tactic.FieldSimp
import Mathlib.Tactic.Positivity

/-! C43: the power estimate depends on the audio only, not on its split into blocks. -/
namespace Verif.Power

/-- One frame: what the estimate is, frame by frame. -/
def frame (a r : ℚ) (s : State) (x : ℚ) : State := settle a r ⟨s.power, s.sum + x * x, s.count + 1⟩

theorem settle_lt {a r : ℚ} {s : State} (h : s.count < stepSize) : settle a r s = s := by
  unfold settle; rw [if_neg (by omega)]

theorem settle_count {a r : ℚ} {s : State} (h : s.count ≤ stepSize) : (settle a r s).count < stepSize := by
  unfold settle; split
  · simp [stepSize]
  · omega

theorem sumSquares_cons (x : ℚ) (xs : List ℚ) : sumSquares (x :: xs) = x * x + sumSquares xs := by simp [sumSquares]

/-- Frames that do not pass the end of the current step of 512 frames. -/
theorem frames_settle (a r : ℚ) (xs : List ℚ) (s : State) (h : s.count + xs.length ≤ stepSize) (hx : xs ≠ []) :
    xs.foldl (frame a r) s = settle a r ⟨s.power, s.sum + sumSquares xs, s.count + xs.length⟩ := by
  induction xs generalizing s with
  | nil => exact absurd rfl hx
  | cons x xs ih =>
    rw [List.foldl_cons]
    by_cases hxs : xs = []
    · subst hxs; simp [frame, sumSquares]
    · have hl : 0 < xs.length := List.length_pos_iff.mpr hxs
      rw [List.length_cons] at h
      have hf : frame a r s x = ⟨s.power, s.sum + x * x, s.count + 1⟩ := by
        unfold frame; exact settle_lt (by dsimp only; omega)
      rw [hf, ih _ (by dsimp only; omega) hxs]
      congr 2
      · rw [sumSquares_cons]; ring
      · rw [List.length_cons]; dsimp only; omega

theorem frame_count {a r : ℚ} {s : State} (h : s.count < stepSize) (x : ℚ) : (frame a r s x).count < stepSize :=
  settle_count (by dsimp only; omega)

theorem frames_count {a r : ℚ} (xs : List ℚ) {s : State} (h : s.count < stepSize) : (xs.foldl (frame a r) s).count < stepSize := by
  induction xs generalizing s with
  | nil => exact h
  | cons x xs ih => exact ih (frame_count h x)

theorem loop_frames (a r : ℚ) (tempSize : Nat) (s : State) (xs : List ℚ) (h : s.count < stepSize) (ht : xs.length ≤ tempSize) :
    loop a r tempSize s xs = some (xs.foldl (frame a r) s) := by
  fun_induction loop a r tempSize s xs with
  | case1 s xs h0 => rw [List.length_eq_zero_iff.mp h0]; rfl
  | case2 s xs h0 hb ih =>
    generalize hn : min (stepSize - s.count) xs.length = n at *
    have hlen : (xs.take n).length = n := by rw [List.length_take]; omega
    have hne : xs.take n ≠ [] := by
      intro hh; rw [hh] at hlen; simp at hlen; omega
    have hset := frames_settle a r (xs.take n) s (by rw [hlen]; omega) hne
    rw [hlen] at hset
    rw [ih (settle_count (by dsimp only; omega)) (by rw [List.length_drop]; omega), ← hset, ← List.foldl_append, List.take_append_drop]
  | case3 s xs h0 hb =>
    exfalso; apply hb; constructor <;> omega

/-- **C43.** For every stream and every split into blocks that fit the configured block size, processing completes without leaving
the temporary buffer, and the state reached is that of the frames of the stream taken one by one. -/
theorem power_frames (a r : ℚ) (size : Nat) (blocks : List (List ℚ)) (hb : ∀ b ∈ blocks, b.length ≤ size) :
    run a r size clear blocks = some (blocks.flatten.foldl (frame a r) clear) := by
  have : ∀ s : State, s.count < stepSize → run a r size s blocks = some (blocks.flatten.foldl (frame a r) s) := by
    induction blocks with
    | nil => intro s _; rfl
    | cons b bs ih =>
      intro s hs
      unfold run process
      rw [loop_frames a r size s b hs (hb b (by simp))]
      simp only
      rw [ih (fun x hx => hb x (by simp [hx])) _ (frames_count b hs), List.flatten_cons, List.foldl_append]
  exact this clear (by simp [clear, stepSize])

/-- **C43, splits.** Two splits of the same stream give the same estimate. -/
theorem power_split (a r : ℚ) (n m : Nat) (bs cs : List (List ℚ)) (hb : ∀ b ∈ bs, b.length ≤ n) (hc : ∀ c ∈ cs, c.length ≤ m)
    (h : bs.flatten = cs.flatten) : run a r n clear bs = run a r m clear cs := by
  rw [power_frames a r n bs hb, power_frames a r m cs hc, h]

example : run (1/2) (3/4) 300 clear [List.replicate 300 2, List.replicate 212 2] = some ⟨2, 0, 0⟩ := by decide +kernel
example : run (1/2) (3/4) 600 clear [List.replicate 513 2] = some ⟨2, 4, 1⟩ := by decide +kernel

/-- The mean of what has been summed so far stays in the bounds of the squares. -/
theorem frame_bounds {a r M : ℚ} (ha : 0 ≤ a ∧ a ≤ 1) (hr : 0 ≤ r ∧ r ≤ 1) {s : State} (hc : s.count < stepSize)
    (hp : 0 ≤ s.power ∧ s.power ≤ M) (hs : 0 ≤ s.sum ∧ s.sum ≤ s.count * M) {x : ℚ} (hx : x * x ≤ M) :
    (0 ≤ (frame a r s x).power ∧ (frame a r s x).power ≤ M) ∧
    (0 ≤ (frame a r s x).sum ∧ (frame a r s x).sum ≤ (frame a r s x).count * M) := by
  have hM : 0 ≤ M := (mul_self_nonneg x).trans hx
  have h1 : 0 ≤ s.sum + x * x := add_nonneg hs.1 (mul_self_nonneg x)
  have h2 : s.sum + x * x ≤ ((s.count + 1 : Nat) : ℚ) * M := by push_cast; linarith [hs.2]
  unfold frame settle
  split
  · rename_i h
    dsimp only at h ⊢
    rw [h] at h2
    have hd : (0 : ℚ) < (stepSize : Nat) := by norm_num [stepSize]
    have hm0 : 0 ≤ (s.sum + x * x) / (stepSize : Nat) := div_nonneg h1 hd.le
    have hm1 : (s.sum + x * x) / (stepSize : Nat) ≤ M := by rw [div_le_iff₀ hd]; linarith
    generalize (s.sum + x * x) / (stepSize : Nat) = m at hm0 hm1
    refine ⟨⟨?_, ?_⟩, le_refl _, by simp⟩
    · apply le_max_of_le_left
      have := mul_nonneg hp.1 ha.1
      have := mul_nonneg hm0 (show 0 ≤ 1 - a by linarith [ha.2])
      linarith
    · apply max_le
      · have := mul_le_mul_of_nonneg_right hp.2 ha.1
        have := mul_le_mul_of_nonneg_right hm1 (show 0 ≤ 1 - a by linarith [ha.2])
        linarith
      · have := mul_le_mul_of_nonneg_right hp.2 hr.1
        have := mul_le_mul_of_nonneg_right hm1 (show 0 ≤ 1 - r by linarith [hr.2])
        linarith
  · exact ⟨hp, h1, h2⟩

/-- **C43, range.** The estimate is never negative and never above the largest squared frame. -/
theorem power_bounds (a r M : ℚ) (ha : 0 ≤ a ∧ a ≤ 1) (hr : 0 ≤ r ∧ r ≤ 1) (hM : 0 ≤ M) (size : Nat) (blocks : List (List ℚ))
    (hb : ∀ b ∈ blocks, b.length ≤ size) (hx : ∀ b ∈ blocks, ∀ x ∈ b, x * x ≤ M) :
    ∃ s, run a r size clear blocks = some s ∧ 0 ≤ s.power ∧ s.power ≤ M := by
  refine ⟨_, power_frames a r size blocks hb, ?_⟩
  have hx' : ∀ x ∈ blocks.flatten, x * x ≤ M := by
    intro x hxx
    obtain ⟨b, hb', hxb⟩ := List.mem_flatten.mp hxx
    exact hx b hb' x hxb
  have key : ∀ (xs : List ℚ) (s : State), s.count < stepSize → (∀ x ∈ xs, x * x ≤ M) → (0 ≤ s.power ∧ s.power ≤ M) →
      (0 ≤ s.sum ∧ s.sum ≤ s.count * M) → 0 ≤ (xs.foldl (frame a r) s).power ∧ (xs.foldl (frame a r) s).power ≤ M := by
    intro xs
    induction xs with
    | nil => intro s _ _ hp _; exact hp
    | cons x xs ih =>
      intro s hc hxs hp hs
      have := frame_bounds (a := a) (r := r) ha hr hc hp hs (hxs x (by simp))
      exact ih _ (frame_count hc x) (fun y hy => hxs y (by simp [hy])) this.1 this.2
  exact key _ clear (by simp [clear, stepSize]) hx' ⟨le_refl _, hM⟩ ⟨le_refl _, by simp [clear]⟩

/-- A block longer than the configured size leaves the temporary buffer. -/
theorem power_long_block_violated : run (1/2) (3/4) 100 clear [List.replicate 101 1] = none := by decide +kernel

end Verif.Power
