import Verif.Smoother.Props

/-!
The linear smoother from any state it can reach: it arrives in time, and it makes no step larger than the range divided by the
smoothing time.
-/
namespace Verif.Smoother

/-! ### Arriving -/

/-- The state lies on a straight line to its target, of at most `N` frames. -/
def OnLine (N : Nat) (s : State) : Prop := ∃ a n k, 0 < n ∧ n ≤ N ∧ RampAt a s.target n k s

theorem onLine_reset {N : Nat} (hN : 0 < N) (v : ℚ) : OnLine N (reset v) :=
  ⟨v, 1, 0, one_pos, hN, by simp [reset, ramp], rfl, fun h => absurd rfl h⟩

theorem onLine_group {N m : Nat} {sf : Int} (hm : 0 < m) (hmN : m ≤ N) (hsf : sf ≤ N) {s : State} (h : OnLine N s) (v : ℚ) :
    OnLine N (group m sf s v).2 := by
  obtain ⟨hT, hC⟩ := retarget_target m sf s v
  have h1 : OnLine N (retarget m sf s v) := by
    unfold retarget
    split
    · have hcast : (((max (m : Int) sf).toNat : Nat) : ℚ) = ((max (m : Int) sf : Int) : ℚ) := by
        have : (((max (m : Int) sf).toNat : Nat) : Int) = max (m : Int) sf := by omega
        exact_mod_cast congrArg (Int.cast : Int → ℚ) this
      exact ⟨s.current, (max (m : Int) sf).toNat, 0, by omega, by omega, by simp [ramp], rfl, fun _ => by rw [hcast]⟩
    · exact h
  obtain ⟨a, n, k, hn, hnN, hr⟩ := h1
  have := move_ramp hn hr m
  refine ⟨a, n, k + m, hn, hnN, ?_⟩
  unfold group
  have ht : (move m (retarget m sf s v)).2.target = (retarget m sf s v).target := this.2.tgt
  rw [ht]
  exact this.2

theorem onLine_groups {N : Nat} {sf : Int} (h16 : 16 ≤ N) (hsf : sf ≤ N) (xs : List ℚ) (s : State) (h : OnLine N s) :
    OnLine N (groups sf s xs).2 := by
  fun_induction groups sf s xs with
  | case1 s xs hl ih => exact ih (onLine_group (by decide) h16 hsf h _)
  | case2 s xs hl h0 => exact h
  | case3 s xs hl h0 => exact onLine_group (by omega) (by omega) hsf h _

theorem onLine_process {N : Nat} {sf : Int} (h16 : 16 ≤ N) (hsf : sf ≤ N) (xs : List ℚ) (sc : Bool) (s : State) (h : OnLine N s) :
    OnLine N (process sf s xs sc).2 := by
  unfold process
  split
  · exact h
  · split
    · exact onLine_reset (by omega) _
    · exact onLine_groups h16 hsf xs s h

theorem onLine_run {N : Nat} {sf : Int} (h16 : 16 ≤ N) (hsf : sf ≤ N) (bs : List (List ℚ × Bool)) (s : State) (h : OnLine N s) :
    OnLine N (run sf s bs).2 := by
  induction bs generalizing s with
  | nil => exact h
  | cons p bs ih => exact ih _ (onLine_process h16 hsf p.1 p.2 s h)

/-- **C39, from any state.** Whatever the smoother was given before, once its input has been still for the smoothing time (for 16 frames, if that is
longer), the output is the input. -/
theorem smoother_settles (n : Nat) (hn : 2 ≤ n) (v0 : ℚ) (before bs : List (List ℚ × Bool)) (v : ℚ)
    (hx : ∀ b ∈ bs, ∀ x ∈ b.1, x = v) (k : Nat) (hk : max 16 n ≤ k + 1) (y : ℚ)
    (hy : (run n (run n (reset v0) before).2 bs).1[k]? = some y) : y = v := by
  have hL := onLine_run (N := max 16 n) (sf := n) (by omega) (by omega) before (reset v0) (onLine_reset (by omega) v0)
  generalize (run n (reset v0) before).2 = s at hL hy
  by_cases hs : s.target = v
  · obtain ⟨a, l, j, hl, hlN, hr⟩ := hL
    rw [hs] at hr
    have := (run_ramp (sf := n) (by omega) hl bs s j hr hx).1
    rw [this] at hy
    simp only [rampPart, List.getElem?_map, Option.map_eq_some_iff] at hy
    obtain ⟨i, hi, rfl⟩ := hy
    have : i = k := by
      have h1 := hi
      rw [List.getElem?_range (by
        have := (List.getElem?_eq_some_iff.mp hi).1
        simpa using this)] at h1
      simpa using h1.symm
    subst this
    exact ramp_end a v hl (by omega)
  · exact smoother_arrives n hn s v hs bs hx k hk y hy

example : (run 20 (run 20 (reset 0) [(List.replicate 3 1, false), (List.replicate 7 (1/2), false)]).2
    [(List.replicate 30 (1/3), true)]).1[19]? = some (1/3) := by decide +kernel

/-- **C39, time in milliseconds.** A smoother set to `ms` milliseconds at `rate` frames per second, when that makes 16 frames or more, is on a
straight line to a constant input: after `k + 1` frames it has gone the part `(k + 1) / L` of the way, where `L` frames are the
smoothing time, up to less than a frame; so it arrives when that time is over, and not before its last frame. -/
theorem smoother_milliseconds (ms : Nat) (rate : ℚ) (h16 : 16 ≤ (ms : ℚ) / 1000 * rate) (s : State) (v : ℚ) (hs : s.target ≠ v)
    (bs : List (List ℚ × Bool)) (hx : ∀ b ∈ bs, ∀ x ∈ b.1, x = v) :
    ∃ L : Nat, (L : ℚ) ≤ rate * ((ms : ℚ) / 1000) ∧ rate * ((ms : ℚ) / 1000) < L + 1 ∧
      ∀ k y, (run (smoothFrames ms rate) s bs).1[k]? = some y →
        y = if k + 1 < L then s.current + (k + 1) / L * (v - s.current) else v := by
  have h0 : 16 ≤ ⌊(ms : ℚ) / 1000 * rate⌋ := Int.le_floor.mpr (by exact_mod_cast h16)
  obtain ⟨L, hL⟩ : ∃ L : Nat, smoothFrames ms rate = (L : Int) := ⟨⌊(ms : ℚ) / 1000 * rate⌋.toNat, by unfold smoothFrames; omega⟩
  have hL' : ⌊(ms : ℚ) / 1000 * rate⌋ = (L : Int) := hL
  obtain ⟨f1, f2⟩ := Int.floor_eq_iff.mp hL'
  have h16L : 16 ≤ L := by omega
  refine ⟨L, by rw [mul_comm]; exact_mod_cast f1, by rw [mul_comm]; exact_mod_cast f2, fun k y hy => ?_⟩
  rw [hL, smoother_line_partial L h16L s v hs bs hx, List.getElem?_map, Option.map_eq_some_iff] at hy
  obtain ⟨i, hi, rfl⟩ := hy
  obtain ⟨hlt, hi⟩ := List.getElem?_eq_some_iff.mp hi
  rw [List.getElem_range] at hi
  subst hi
  split
  · rename_i hk
    rw [ramp_before _ _ (by omega)]
    push_cast
    ring
  · exact ramp_end _ _ (by omega) (by omega)

example : smoothFrames 10 48000 = 480 ∧ (16 : ℚ) ≤ (10 : Nat) / 1000 * 48000 := by
  constructor <;> norm_num [smoothFrames]

/-! ### Steps -/

/-- Successive values from `c` on differ by `D` at most. -/
def Steps (D : ℚ) : ℚ → List ℚ → Prop
  | _, [] => True
  | c, y :: ys => |y - c| ≤ D ∧ Steps D y ys

theorem steps_append {D : ℚ} {c : ℚ} {xs ys : List ℚ} (h1 : Steps D c xs) (h2 : Steps D (xs.getLastD c) ys) : Steps D c (xs ++ ys) := by
  induction xs generalizing c with
  | nil => exact h2
  | cons x xs ih =>
    refine ⟨h1.1, ih h1.2 ?_⟩
    rw [List.getLastD_cons] at h2; exact h2

theorem last_append (c : ℚ) (xs ys : List ℚ) : (xs ++ ys).getLastD c = ys.getLastD (xs.getLastD c) := by
  induction xs generalizing c with
  | nil => rfl
  | cons x xs ih => rw [List.cons_append, List.getLastD_cons, List.getLastD_cons]; exact ih x

theorem steps_get {D : ℚ} {c : ℚ} {xs : List ℚ} (h : Steps D c xs) (i : Nat) (x y : ℚ) (hx : (c :: xs)[i]? = some x)
    (hy : (c :: xs)[i + 1]? = some y) : |y - x| ≤ D := by
  induction xs generalizing c i with
  | nil => simp at hy
  | cons z zs ih =>
    cases i with
    | zero =>
      simp only [List.getElem?_cons_zero, Option.some.injEq, zero_add, List.getElem?_cons_succ] at hx hy
      subst hx hy; exact h.1
    | succ i => exact ih h.2 i (by simpa using hx) (by simpa using hy)

theorem steps_const {D : ℚ} (hD : 0 ≤ D) {c : ℚ} {xs : List ℚ} (h : ∀ x ∈ xs, x = c) : Steps D c xs := by
  induction xs with
  | nil => trivial
  | cons x xs ih =>
    obtain rfl := h x (by simp)
    exact ⟨by simpa using hD, ih (fun y hy => h y (by simp [hy]))⟩

theorem frames_last (f : ℚ → ℚ) (n : Nat) (c : ℚ) : (frames f n c).1.getLastD c = (frames f n c).2 := by
  induction n generalizing c with
  | zero => rfl
  | succ n ih => simp only [frames]; rw [List.getLastD_cons]; exact ih _

theorem frames_steps {D : ℚ} {f : ℚ → ℚ} {P : ℚ → Prop} (hf : ∀ c, P c → P (f c) ∧ |f c - c| ≤ D) (n : Nat) (c : ℚ) (hc : P c) :
    Steps D c (frames f n c).1 := by
  induction n generalizing c with
  | zero => trivial
  | succ n ih => exact ⟨(hf c hc).2, ih _ (hf c hc).1⟩

theorem replicate_last {n : Nat} (c : ℚ) : (List.replicate n c).getLastD c = c := by
  induction n with
  | zero => rfl
  | succ n ih => rw [List.replicate_succ, List.getLastD_cons]; exact ih

theorem move_steps {n : Nat} {s : State} (h : Toward s) {D : ℚ} (hD : |s.step| ≤ D) :
    Steps D s.current (move n s).1 ∧ (move n s).1.getLastD s.current = (move n s).2.current := by
  have hD0 : 0 ≤ D := le_trans (abs_nonneg _) hD
  unfold move
  split
  · rename_i h1
    have hp := h.1 h1
    rw [abs_of_pos hp] at hD
    refine ⟨frames_steps (P := fun c => c ≤ s.target) (fun c hc => ⟨min_le_left _ _, ?_⟩) n _ (le_of_lt h1), frames_last _ _ _⟩
    rw [abs_le]
    constructor
    · have : c ≤ min s.target (c + s.step) := le_min hc (by linarith)
      linarith
    · have := min_le_right s.target (c + s.step)
      linarith
  · split
    · rename_i h1 h2
      have hp := h.2 h2
      rw [abs_of_neg hp] at hD
      refine ⟨frames_steps (P := fun c => s.target ≤ c) (fun c hc => ⟨le_max_left _ _, ?_⟩) n _ (le_of_lt h2), frames_last _ _ _⟩
      rw [abs_le]
      constructor
      · have := le_max_right s.target (c + s.step)
        linarith
      · have : max s.target (c + s.step) ≤ c := max_le hc (by linarith)
        linarith
    · rename_i h1 h2
      have : s.target = s.current := le_antisymm (not_lt.mp h1) (not_lt.mp h2)
      rw [this]
      exact ⟨steps_const hD0 (fun x hx => List.eq_of_mem_replicate hx), replicate_last _⟩

/-- Values in the range, going towards the target, in steps of at most the range divided by the smoothing time. -/
structure Slow (sf lo hi : ℚ) (s : State) : Prop where
  toward : Toward s
  cur : lo ≤ s.current ∧ s.current ≤ hi
  step : |s.step| ≤ (hi - lo) / sf

theorem slow_reset {sf lo hi v : ℚ} (hsf : 0 < sf) (h : lo ≤ v ∧ v ≤ hi) : Slow sf lo hi (reset v) :=
  ⟨reset_toward v, h, by simp only [reset, abs_zero]; exact div_nonneg (by linarith [h.1, h.2]) hsf.le⟩

theorem slow_group {sf : Int} (hsf : 2 ≤ sf) {lo hi : ℚ} {n : Nat} (hn : 0 < n) {s : State} (h : Slow sf lo hi s) {v : ℚ}
    (hv : lo ≤ v ∧ v ≤ hi) :
    Steps ((hi - lo) / sf) s.current (group n sf s v).1 ∧ (group n sf s v).1.getLastD s.current = (group n sf s v).2.current ∧
      Slow sf lo hi (group n sf s v).2 := by
  have hsq : (0 : ℚ) < sf := by exact_mod_cast (by omega : 0 < sf)
  have hT := retarget_toward (n := n) (sf := sf) (v := v) hn h.toward
  have hr := retarget_target n sf s v
  have hst : |(retarget n sf s v).step| ≤ (hi - lo) / sf := by
    unfold retarget
    split
    · dsimp only
      have hm : (sf : ℚ) ≤ ((max (n : Int) sf : Int) : ℚ) := by exact_mod_cast le_max_right _ _
      rw [abs_div, abs_of_pos (lt_of_lt_of_le hsq hm)]
      have h1 : |v - s.current| ≤ hi - lo := by rw [abs_le]; constructor <;> linarith [h.cur.1, h.cur.2, hv.1, hv.2]
      exact div_le_div₀ (by linarith [hv.1, hv.2]) h1 hsq hm
    · exact h.step
  have hm := move_steps (n := n) hT hst
  rw [hr.2] at hm
  have hh := group_hull (sf := sf) hn h.toward h.cur hv
  refine ⟨hm.1, hm.2, hh.2.2.1, hh.2.1, ?_⟩
  have := move_hull (n := n) (s := retarget n sf s v) (lo := lo) (hi := hi) hT (by rw [hr.2]; exact h.cur) (by rw [hr.1]; exact hv)
  show |(move n (retarget n sf s v)).2.step| ≤ _
  rw [this.2.2.2.2]; exact hst

theorem slow_groups {sf : Int} (hsf : 2 ≤ sf) {lo hi : ℚ} (xs : List ℚ) (s : State) (h : Slow sf lo hi s) (hx : ∀ x ∈ xs, lo ≤ x ∧ x ≤ hi) :
    Steps ((hi - lo) / sf) s.current (groups sf s xs).1 ∧ (groups sf s xs).1.getLastD s.current = (groups sf s xs).2.current ∧
      Slow sf lo hi (groups sf s xs).2 := by
  fun_induction groups sf s xs with
  | case1 s xs hl ih =>
    obtain ⟨g1, g2, g3⟩ := slow_group hsf (n := 16) (by decide) h (hx _ (getD_mem (i := 15) (by omega)))
    obtain ⟨i1, i2, i3⟩ := ih g3 (fun x hx' => hx x (List.mem_of_mem_drop hx'))
    refine ⟨steps_append g1 (by rw [g2]; exact i1), ?_, i3⟩
    rw [last_append, g2]; exact i2
  | case2 s xs hl h0 => exact ⟨trivial, rfl, h⟩
  | case3 s xs hl h0 => exact slow_group hsf (by omega) h (hx _ (getLastD_mem h0))

theorem slow_process {sf : Int} (hsf : 2 ≤ sf) {lo hi : ℚ} (xs : List ℚ) (sc : Bool) (hsc : sc = true → ∀ x ∈ xs, ∀ y ∈ xs, x = y)
    (s : State) (h : Slow sf lo hi s) (hx : ∀ x ∈ xs, lo ≤ x ∧ x ≤ hi) :
    Steps ((hi - lo) / sf) s.current (process sf s xs sc).1 ∧
      (process sf s xs sc).1.getLastD s.current = (process sf s xs sc).2.current ∧ Slow sf lo hi (process sf s xs sc).2 := by
  have hsq : (0 : ℚ) < sf := by exact_mod_cast (by omega : 0 < sf)
  unfold process
  split
  · exact ⟨trivial, rfl, h⟩
  · rename_i h0
    split
    · rename_i hc
      obtain ⟨hc1, hc2, hc3⟩ := hc.resolve_left (by omega)
      cases xs with
      | nil => simp at h0
      | cons x xs =>
        simp only [List.headD_cons] at hc3
        have hall : ∀ y ∈ x :: xs, y = s.current := fun y hy => (hsc hc1 y hy x (by simp)).trans hc3.symm
        refine ⟨steps_const ?_ hall, rfl, slow_reset hsq (hx _ (getLastD_mem h0))⟩
        exact div_nonneg (by linarith [h.cur.1, h.cur.2]) hsq.le
    · exact slow_groups hsf xs s h hx

theorem slow_run {sf : Int} (hsf : 2 ≤ sf) {lo hi : ℚ} (bs : List (List ℚ × Bool)) (s : State) (h : Slow sf lo hi s)
    (hsc : ∀ b ∈ bs, b.2 = true → ∀ x ∈ b.1, ∀ y ∈ b.1, x = y) (hx : ∀ b ∈ bs, ∀ x ∈ b.1, lo ≤ x ∧ x ≤ hi) :
    Steps ((hi - lo) / sf) s.current (run sf s bs).1 := by
  induction bs generalizing s with
  | nil => trivial
  | cons p bs ih =>
    obtain ⟨g1, g2, g3⟩ := slow_process hsf p.1 p.2 (hsc p (by simp)) s h (hx p (by simp))
    refine steps_append g1 ?_
    rw [g2]
    exact ih _ g3 (fun b hb => hsc b (by simp [hb])) (fun b hb => hx b (by simp [hb]))

/-- **C39, steps.** Whatever the input, as long as it stays in a range and the shortcut is only taken for blocks that do not
change: from frame to frame (and from the value it was reset to) the output changes by at most the range divided by the smoothing
time. -/
theorem smoother_steps (n : Nat) (hn : 2 ≤ n) (lo hi v0 : ℚ) (h0 : lo ≤ v0 ∧ v0 ≤ hi) (bs : List (List ℚ × Bool))
    (hsc : ∀ b ∈ bs, b.2 = true → ∀ x ∈ b.1, ∀ y ∈ b.1, x = y) (hx : ∀ b ∈ bs, ∀ x ∈ b.1, lo ≤ x ∧ x ≤ hi)
    (i : Nat) (x y : ℚ) (hi1 : (v0 :: (run n (reset v0) bs).1)[i]? = some x) (hi2 : (v0 :: (run n (reset v0) bs).1)[i + 1]? = some y) :
    |y - x| ≤ (hi - lo) / n := by
  have hq : (0 : ℚ) < ((n : Int) : ℚ) := by exact_mod_cast (by omega : 0 < n)
  have := slow_run (sf := n) (by omega) bs (reset v0) (slow_reset hq h0) hsc hx
  have h2 := steps_get this i x y hi1 hi2
  exact_mod_cast h2

example : ∀ i < 9, |((0 :: (run 20 (reset 0) [(List.replicate 5 1, false), ([1/2, 0, 1, 0], false)]).1).getD (i + 1) 0) -
    ((0 :: (run 20 (reset 0) [(List.replicate 5 1, false), ([1/2, 0, 1, 0], false)]).1).getD i 0)| ≤ 1 / 20 := by decide +kernel

end Verif.Smoother
