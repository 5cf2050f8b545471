import Verif.Playback.Model
import Mathlib.Tactic.Linarith
import Mathlib.Tactic.Ring
import Mathlib.Tactic.FieldSimp
import Mathlib.Tactic.Positivity

/-! C21: source frames that are read lie in the sample and its padding. C22: the loop wraps exactly. C66: loop counts. -/
namespace Verif.Playback

/-! ### Loop points -/

/-- The loop is never empty, so that wrapping terminates. -/
theorem loop_size_pos (s : Setup) (b : Block) : 0 < (updateLoop s b).size := by
  simp only [updateLoop, Loop.size]; omega

theorem loop_start_nonneg (s : Setup) (b : Block) : 0 ≤ (updateLoop s b).start := by
  simp only [updateLoop, clampI]; omega

theorem loop_xf_le (s : Setup) (b : Block) : (updateLoop s b).xfSize ≤ (updateLoop s b).start := by
  simp only [updateLoop]; omega

theorem wrap_spec (l : Loop) (hs : 0 < l.size) (w : Int) (n : Nat) :
    ∃ k : Nat, wrapIndex l w n = (w - l.size * k, n + k) ∧ w - l.size * k ≤ l.stop
      ∧ (k = 0 ∨ l.start ≤ w - l.size * k) := by
  fun_induction wrapIndex l w n with
  | case1 w n h ih =>
    obtain ⟨k, h1, h2, h3⟩ := ih
    have e : w - l.size * ((k + 1 : Nat) : Int) = w - l.size - l.size * k := by push_cast; ring
    refine ⟨k + 1, ?_, ?_, Or.inr ?_⟩
    · rw [h1, e]; congr 1; omega
    · rw [e]; exact h2
    · rw [e]
      rcases h3 with h3 | h3
      · subst h3; simp only [Loop.size] at h hs ⊢; push_cast; omega
      · exact h3
  | case2 w n h =>
    refine ⟨0, by simp, ?_, Or.inl rfl⟩
    have : ¬ l.stop < w := fun h2 => h ⟨hs, h2⟩
    push_cast; omega

/-! ### Positions before looping -/

theorem cumsum_shift (a c : ℚ) (js : List ℚ) : cumsum (a + c) js = (cumsum a js).map (· + c) := by
  induction js generalizing a with
  | nil => rfl
  | cons j js ih =>
    simp only [cumsum, List.map_cons]
    rw [show a + c + j = (a + j) + c by ring, ih]

theorem cumsum_length (a : ℚ) (js : List ℚ) : (cumsum a js).length = js.length := by
  induction js generalizing a with
  | nil => rfl
  | cons j js ih => simp [cumsum, ih]

theorem cumsum_ge (a : ℚ) (js : List ℚ) (h : ∀ j ∈ js, 0 ≤ j) : ∀ x ∈ cumsum a js, a ≤ x := by
  induction js generalizing a with
  | nil => simp [cumsum]
  | cons j js ih =>
    have hj := h j (by simp)
    intro x hx
    simp only [cumsum, List.mem_cons] at hx
    rcases hx with rfl | hx
    · linarith
    · have := ih (a + j) (fun y hy => h y (by simp [hy])) x hx
      linarith

theorem cumsum_sorted (a : ℚ) (js : List ℚ) (h : ∀ j ∈ js, 0 ≤ j) : (cumsum a js).Pairwise (· ≤ ·) := by
  induction js generalizing a with
  | nil => exact List.Pairwise.nil
  | cons j js ih =>
    simp only [cumsum]
    exact List.Pairwise.cons (fun x hx => cumsum_ge _ _ (fun y hy => h y (by simp [hy])) x hx)
      (ih _ (fun y hy => h y (by simp [hy])))

theorem cumsum_le (a m : ℚ) (js : List ℚ) (h : ∀ j ∈ js, 0 ≤ j) (hm : a + js.sum ≤ m) : ∀ x ∈ cumsum a js, x ≤ m := by
  induction js generalizing a with
  | nil => simp [cumsum]
  | cons j js ih =>
    have hs : 0 ≤ js.sum := List.sum_nonneg (fun y hy => h y (by simp [hy]))
    simp only [List.sum_cons] at hm
    intro x hx
    simp only [cumsum, List.mem_cons] at hx
    rcases hx with rfl | hx
    · linarith
    · exact ih (a + j) (fun y hy => h y (by simp [hy])) (by linarith) x hx

/-- The speeds that count: a new voice plays its first frame first (Voice.cpp:1107). Specification. -/
def advances (b : Block) : List ℚ :=
  match b.jumps with
  | [] => []
  | j :: js => (if b.fresh then 0 else j) :: js

theorem advances_nonneg (b : Block) (h : ∀ j ∈ b.jumps, 0 ≤ j) : ∀ j ∈ advances b, 0 ≤ j := by
  unfold advances
  cases hb : b.jumps with
  | nil => simp
  | cons j js =>
    rw [hb] at h
    intro x hx
    simp only [List.mem_cons] at hx
    rcases hx with rfl | hx
    · split
      · exact le_refl _
      · exact h j (by simp)
    · exact h x (by simp [hx])

theorem advances_length (b : Block) : (advances b).length = b.jumps.length := by
  unfold advances; cases b.jumps <;> simp

theorem raw_eq (st : State) (b : Block) :
    rawPositions st b = (cumsum st.frac (advances b)).map fun x => (st.pos + (cast x).1, (cast x).2) := by
  unfold rawPositions advances
  cases b.jumps with
  | nil => rfl
  | cons j js => simp only [firstJump, cumsum, zero_add]; rw [add_comm]

theorem cast_frac (x : ℚ) : 0 ≤ (cast x).2 ∧ (cast x).2 < 1 := by
  simp only [cast]
  have h1 := Int.floor_le (min (2 ^ 24) x)
  have h2 := Int.lt_floor_add_one (min (2 ^ 24) x)
  constructor <;> linarith

theorem cast_nonneg {x : ℚ} (h : 0 ≤ x) : 0 ≤ (cast x).1 := by
  simp only [cast]
  exact Int.floor_nonneg.mpr (le_min (by positivity) h)

theorem cast_mono {x y : ℚ} (h : x ≤ y) : (cast x).1 ≤ (cast y).1 := by
  simp only [cast]
  exact Int.floor_le_floor (min_le_min (le_refl _) h)

theorem cast_sum {x : ℚ} (h : x ≤ 2 ^ 24) : ((cast x).1 : ℚ) + (cast x).2 = x := by
  simp only [cast]; rw [min_eq_right h]; ring

theorem raw_facts (st : State) (b : Block) (hf : 0 ≤ st.frac) (h : ∀ j ∈ b.jumps, 0 ≤ j) :
    (rawPositions st b).Pairwise (fun x y => x.1 ≤ y.1)
      ∧ ∀ x ∈ rawPositions st b, st.pos ≤ x.1 ∧ 0 ≤ x.2 ∧ x.2 < 1 := by
  rw [raw_eq]
  have hn := advances_nonneg b h
  constructor
  · rw [List.pairwise_map]
    exact (cumsum_sorted _ _ hn).imp fun hxy => by have := cast_mono hxy; simp only; omega
  · intro x hx
    obtain ⟨y, hy, rfl⟩ := List.mem_map.mp hx
    have h1 := cast_nonneg (le_trans hf (cumsum_ge _ _ hn y hy))
    have h2 := cast_frac y
    exact ⟨by simp only; omega, h2⟩

theorem raw_length (st : State) (b : Block) : (rawPositions st b).length = b.jumps.length := by
  rw [raw_eq, List.length_map, cumsum_length, advances_length]

/-! ### The looping pass -/

/-- How an index that was looped relates to the index before. -/
def Wrapped (l : Loop) (x o : Int × ℚ) : Prop :=
  o.2 = x.2 ∧ ∃ k : Nat, o.1 = x.1 - l.size * k ∧ o.1 ≤ l.stop ∧ (k = 0 ∨ l.start ≤ o.1)

theorem loopPass_spec (l : Loop) (hs : 0 < l.size) (c : Option Nat) (xs : List (Int × ℚ)) :
    ∀ (i br rs : Nat) (oi : Int) (ot : Bool),
      xs.Pairwise (fun x y => x.1 ≤ y.1) →
      (br = 0 ∨ ∀ x ∈ xs, l.start ≤ x.1 - l.size * br) →
      ∃ ys, xs = ys ++ (loopPass l c xs i br rs oi ot).rest
        ∧ List.Forall₂ (Wrapped l) ys (loopPass l c xs i br rs oi ot).out
        ∧ (∀ x ∈ (loopPass l c xs i br rs oi ot).rest, ∀ o ∈ (loopPass l c xs i br rs oi ot).out.getLast?,
            o.1 ≤ x.1 - l.size * (loopPass l c xs i br rs oi ot).blockRestarts)
        ∧ ((loopPass l c xs i br rs oi ot).out = [] → xs = []) := by
  induction xs with
  | nil => intro i br rs oi ot _ _; exact ⟨[], by simp [loopPass], by simp [loopPass], by simp [loopPass], by simp⟩
  | cons x xs ih =>
    obtain ⟨r, f⟩ := x
    intro i br rs oi ot hp hb
    obtain ⟨k, hk, hk2, hk3⟩ := wrap_spec l hs (r - l.size * br) 0
    have e : r - l.size * br - l.size * k = r - l.size * ((br + k : Nat) : Int) := by push_cast; ring
    rw [e] at hk hk2 hk3
    have hge : br + k = 0 ∨ l.start ≤ r - l.size * ((br + k : Nat) : Int) := by
      rcases hk3 with h | h
      · subst h
        rcases hb with h | h
        · left; omega
        · right; simpa using h (r, f) (by simp)
      · right; exact h
    have hw : Wrapped l (r, f) (r - l.size * ((br + k : Nat) : Int), f) := ⟨rfl, br + k, rfl, hk2, hge⟩
    have hxs := List.pairwise_cons.mp hp
    simp only [loopPass, hk, Nat.zero_add]
    split
    · refine ⟨[(r, f)], rfl, List.Forall₂.cons hw List.Forall₂.nil, ?_, by simp⟩
      intro x hx o ho
      simp only [List.getLast?_singleton, Option.mem_def, Option.some.injEq] at ho
      subst ho
      have := hxs.1 x hx
      simp only at this ⊢
      omega
    · have hb' : br + k = 0 ∨ ∀ x ∈ xs, l.start ≤ x.1 - l.size * ((br + k : Nat) : Int) := by
        rcases hge with h | h
        · left; exact h
        · right
          intro x hx
          have := hxs.1 x hx
          simp only at this
          omega
      obtain ⟨ys, h1, h2, h3, h4⟩ := ih (i + 1) (br + k) (rs + k) (r - l.size * ((br + k : Nat) : Int))
        (xfading l (r - l.size * ((br + k : Nat) : Int))) hxs.2 hb'
      refine ⟨(r, f) :: ys, by simp only [List.cons_append]; rw [← h1], List.Forall₂.cons hw h2, ?_, by simp⟩
      intro x hx o ho
      rw [List.getLast?_cons] at ho
      simp only [Option.mem_def, Option.some.injEq] at ho
      cases hl : (loopPass l c xs (i + 1) (br + k) (rs + k) (r - l.size * ((br + k : Nat) : Int))
        (xfading l (r - l.size * ((br + k : Nat) : Int)))).out.getLast? with
      | none =>
        have hx0 := h4 (List.getLast?_eq_none_iff.mp hl)
        rw [hx0] at hx
        simp [loopPass] at hx
      | some o' =>
        rw [hl] at ho
        simp only [Option.getD_some] at ho
        subst ho
        exact h3 x hx _ hl

theorem wrapped_ge {l : Loop} {x o : Int × ℚ} {lo : Int} (h : Wrapped l x o) (h1 : lo ≤ x.1) (h2 : lo ≤ l.start) :
    lo ≤ o.1 := by
  obtain ⟨_, k, hk, _, hk3⟩ := h
  rcases hk3 with h3 | h3
  · subst h3; simp at hk; omega
  · omega

/-- Without a loop count nothing is left of the block. -/
theorem loopPass_all (l : Loop) (xs : List (Int × ℚ)) :
    ∀ (i br rs : Nat) (oi : Int) (ot : Bool), (loopPass l none xs i br rs oi ot).rest = [] := by
  induction xs with
  | nil => intros; rfl
  | cons x xs ih => intros; obtain ⟨r, f⟩ := x; simp only [loopPass, reached, Bool.and_false]; simpa using ih _ _ _ _ _

theorem tail_mem (l : Loop) (br : Nat) (e : Int) (xs : List (Int × ℚ)) :
    ∀ o ∈ tailPass l br e xs, o = (e, almostOne) ∨ (o.1 < e ∧ ∃ x ∈ xs, o.2 = x.2 ∧ o.1 = x.1 - l.size * br) := by
  induction xs with
  | nil => simp [tailPass]
  | cons x xs ih =>
    obtain ⟨r, f⟩ := x
    intro o ho
    simp only [tailPass] at ho
    split at ho
    · left; exact List.eq_of_mem_replicate ho
    · rename_i hlt
      simp only [List.mem_cons] at ho
      rcases ho with rfl | ho
      · right; exact ⟨by simp only; omega, (r, f), by simp, rfl, rfl⟩
      · rcases ih o ho with h | ⟨h1, x, hx, h2⟩
        · left; exact h
        · right; exact ⟨h1, x, by simp [hx], h2⟩

theorem tail_length (l : Loop) (br : Nat) (e : Int) (xs : List (Int × ℚ)) : (tailPass l br e xs).length = xs.length := by
  induction xs with
  | nil => rfl
  | cons x xs ih =>
    obtain ⟨r, f⟩ := x
    simp only [tailPass]
    split <;> simp [ih]

theorem almostOne_mem : 0 ≤ almostOne ∧ almostOne < 1 := by unfold almostOne; constructor <;> norm_num

/-! ### The pass without a loop -/

/-- Whether the region plays its sample several times in a row (`count=`). -/
def repeats (s : Setup) : Prop := s.sampleCount.isSome ∧ s.mayLoop = false

theorem shot_mem (size : Int) (c : Option Nat) (ml : Bool) (e : Int) (hc : c = none ∨ ml = true)
    (xs : List (Int × ℚ)) : ∀ (i cnt : Nat), ∀ o ∈ (shotPass size c ml e xs i 0 cnt).out,
      o = (e, almostOne) ∨ (o.1 < e ∧ o ∈ xs) := by
  induction xs with
  | nil => simp [shotPass]
  | cons x xs ih =>
    obtain ⟨r, f⟩ := x
    intro i cnt o ho
    have hcond : (moreLeft c cnt && !ml) = false := by
      rcases hc with h | h
      · subst h; rfl
      · subst h; simp
    simp only [shotPass, hcond, Bool.false_eq_true, if_false] at ho
    split at ho
    · left; exact List.eq_of_mem_replicate ho
    · rename_i hlt
      simp only [List.mem_cons] at ho
      rcases ho with rfl | ho
      · right; simp only [Nat.cast_zero, mul_zero, sub_zero] at hlt ⊢; exact ⟨by omega, by simp⟩
      · rcases ih _ _ o ho with h | ⟨h1, h2⟩
        · left; exact h
        · right; exact ⟨h1, by simp [h2]⟩

theorem shot_length (size : Int) (c : Option Nat) (ml : Bool) (e : Int) (xs : List (Int × ℚ)) :
    ∀ (i br cnt : Nat), (shotPass size c ml e xs i br cnt).out.length = xs.length := by
  induction xs with
  | nil => intros; rfl
  | cons x xs ih =>
    obtain ⟨r, f⟩ := x
    intro i br cnt
    simp only [shotPass]
    split
    · split <;> simp [ih]
    · simp [ih]

/-! ### Frames that are read -/

/-- Positions a voice may be at. -/
def Ok (lo : Int) (st : State) : Prop := lo ≤ st.pos ∧ 0 ≤ st.frac ∧ st.frac < 1

theorem finish_ok (lo : Int) (st : State) (xs : List (Int × ℚ)) (h : Ok lo st)
    (hx : ∀ o ∈ xs, lo ≤ o.1 ∧ 0 ≤ o.2 ∧ o.2 < 1) : Ok lo (finish st xs) := by
  unfold finish
  cases hl : xs.getLast? with
  | none => exact h
  | some x => exact hx x (List.mem_of_getLast? hl)

theorem Forall₂.exists_left {α β : Type} {R : α → β → Prop} {xs : List α} {ys : List β} (h : List.Forall₂ R xs ys) :
    ∀ y ∈ ys, ∃ x ∈ xs, R x y := by
  induction h with
  | nil => simp
  | cons hr _ ih =>
    intro y hy
    simp only [List.mem_cons] at hy
    rcases hy with rfl | hy
    · exact ⟨_, by simp, hr⟩
    · obtain ⟨x, hx, hr⟩ := ih y hy
      exact ⟨x, by simp [hx], hr⟩

theorem block_inside (s : Setup) (st : State) (b : Block) (lo : Int) (hlo : lo ≤ 0) (hst : Ok lo st)
    (hj : ∀ j ∈ b.jumps, 0 ≤ j) (hc : ¬ repeats s) (hl : 0 < b.frames → lo ≤ lastIndex s b) (hfr : 0 ≤ b.frames) :
    (∀ o ∈ (fillBlock s st b).frames, lo ≤ o.1 ∧ o.1 < b.frames ∧ 0 ≤ o.2 ∧ o.2 < 1)
      ∧ Ok lo (fillBlock s st b).st := by
  have hraw := raw_facts st b hst.2.1 hj
  unfold fillBlock
  split
  · exact ⟨by simp, hst⟩
  · rename_i hne
    have hfr : 0 < b.frames := by have : b.frames ≠ 0 := fun h => hne (Or.inr h); omega
    have hlast : lastIndex s b < b.frames := by unfold lastIndex; omega
    split
    · rename_i hloop
      have hsz := loop_size_pos s b
      have hst0 := loop_start_nonneg s b
      have hstop : (updateLoop s b).stop < b.frames := by
        simp only [loops, Bool.and_eq_true, decide_eq_true_eq] at hloop; exact hloop.1.1
      obtain ⟨ys, h1, h2, h3, h4⟩ := loopPass_spec (updateLoop s b) hsz s.loopCount (rawPositions st b) 0 0 st.restarts
        0 false hraw.1 (Or.inl rfl)
      have hall : ∀ o ∈ (loopPass (updateLoop s b) s.loopCount (rawPositions st b) 0 0 st.restarts 0 false).out
          ++ tailPass (updateLoop s b)
            (loopPass (updateLoop s b) s.loopCount (rawPositions st b) 0 0 st.restarts 0 false).blockRestarts
            (lastIndex s b) (loopPass (updateLoop s b) s.loopCount (rawPositions st b) 0 0 st.restarts 0 false).rest,
          lo ≤ o.1 ∧ o.1 < b.frames ∧ 0 ≤ o.2 ∧ o.2 < 1 := by
        intro o ho
        have hout : ∀ o ∈ (loopPass (updateLoop s b) s.loopCount (rawPositions st b) 0 0 st.restarts 0 false).out,
            lo ≤ o.1 ∧ o.1 < b.frames ∧ 0 ≤ o.2 ∧ o.2 < 1 := by
          intro o ho
          obtain ⟨x, hx, hw⟩ := Forall₂.exists_left h2 o ho
          have hx' := hraw.2 x (by rw [h1]; exact List.mem_append_left _ hx)
          refine ⟨wrapped_ge hw (le_trans hst.1 hx'.1) (by omega), ?_, ?_, ?_⟩
          · obtain ⟨_, k, _, h, _⟩ := hw; omega
          · rw [hw.1]; exact hx'.2.1
          · rw [hw.1]; exact hx'.2.2
        rcases List.mem_append.mp ho with ho | ho
        · exact hout o ho
        · rcases tail_mem _ _ _ _ o ho with h | ⟨hlt, x, hx, hf, hxi⟩
          · subst h; exact ⟨hl hfr, hlast, almostOne_mem⟩
          · have hx' := hraw.2 x (by rw [h1]; exact List.mem_append_right _ hx)
            refine ⟨?_, by omega, by rw [hf]; exact hx'.2.1, by rw [hf]; exact hx'.2.2⟩
            cases hgl : (loopPass (updateLoop s b) s.loopCount (rawPositions st b) 0 0 st.restarts 0 false).out.getLast? with
            | none =>
              have := h4 (List.getLast?_eq_none_iff.mp hgl)
              rw [this] at hx
              simp [loopPass] at hx
            | some o' =>
              have := h3 x hx o' hgl
              have := (hout o' (List.mem_of_getLast? hgl)).1
              omega
      exact ⟨hall, finish_ok lo _ _ hst (fun o ho => ⟨(hall o ho).1, (hall o ho).2.2⟩)⟩
    · have hcc : s.sampleCount = none ∨ s.mayLoop = true := by
        unfold repeats at hc
        cases h : s.sampleCount with
        | none => left; rfl
        | some k =>
          right
          cases h2 : s.mayLoop with
          | true => rfl
          | false => exact absurd ⟨by rw [h]; rfl, h2⟩ hc
      have hall : ∀ o ∈ (shotPass s.sampleSize s.sampleCount s.mayLoop (lastIndex s b) (rawPositions st b) 0 0
          st.count).out, lo ≤ o.1 ∧ o.1 < b.frames ∧ 0 ≤ o.2 ∧ o.2 < 1 := by
        intro o ho
        rcases shot_mem _ _ _ _ hcc _ _ _ o ho with h | ⟨h, hx⟩
        · subst h; exact ⟨hl hfr, hlast, almostOne_mem⟩
        · have hx' := hraw.2 o hx
          exact ⟨le_trans hst.1 hx'.1, by omega, hx'.2⟩
      exact ⟨hall, finish_ok lo _ _ hst (fun o ho => ⟨(hall o ho).1, (hall o ho).2.2⟩)⟩

theorem play_inside (s : Setup) (lo : Int) (hlo : lo ≤ 0) (hc : ¬ repeats s) (bs : List Block)
    (hj : ∀ b ∈ bs, ∀ j ∈ b.jumps, 0 ≤ j) (hl : ∀ b ∈ bs, 0 < b.frames → lo ≤ lastIndex s b)
    (hfr : ∀ b ∈ bs, 0 ≤ b.frames) :
    ∀ st, Ok lo st → ∀ p ∈ bs.zip (play s st bs), ∀ o ∈ p.2.frames, lo ≤ o.1 ∧ o.1 < p.1.frames := by
  induction bs with
  | nil => simp
  | cons b bs ih =>
    intro st hst p hp o ho
    have hb := block_inside s st b lo hlo hst (hj b (by simp)) hc (hl b (by simp)) (hfr b (by simp))
    simp only [play, List.zip_cons_cons, List.mem_cons] at hp
    rcases hp with rfl | hp
    · exact ⟨(hb.1 o ho).1, (hb.1 o ho).2.1⟩
    · exact ih (fun c hc => hj c (by simp [hc])) (fun c hc => hl c (by simp [hc])) (fun c hc => hfr c (by simp [hc]))
        _ hb.2 p hp o ho

/-- The frames around a position that the longest interpolator looks at (Interpolators.hpp:204-245: 72 points from
`1 - 36`). -/
def Reach (k : Int) : Prop := -35 ≤ k ∧ k ≤ 36

/-- The padding before and after the sample (`config::excessFileFrames`, FilePool.h:51-52). -/
def padding : Int := 64

/-- C21: whatever the speeds, the start offset, the loop points (which may move from block to block), the block
sizes, the loading progress, every frame the interpolators look at lies in the sample or its padding.

`_partial`: for regions without `count=` (see `count_inside_partial` and the violations below). -/
theorem playback_inside_partial (s : Setup) (hc : ¬ repeats s) (h0 : 0 ≤ s.offset) (hi : 0 ≤ s.infoEnd)
    (bs : List Block) (hj : ∀ b ∈ bs, ∀ j ∈ b.jumps, 0 ≤ j) (hfr : ∀ b ∈ bs, 0 ≤ b.frames) :
    ∀ p ∈ bs.zip (play s s.init bs), ∀ o ∈ p.2.frames, ∀ k, Reach k →
      -padding ≤ o.1 + k ∧ o.1 + k < p.1.frames + padding := by
  intro p hp o ho k hk
  have := play_inside s (-1) (by omega) hc bs hj
    (fun b hb hf => by simp only [lastIndex, Setup.sampleEnd_, clampI]; omega) hfr s.init
    ⟨by simp only [Setup.init]; omega, by simp [Setup.init], by simp [Setup.init]⟩ p hp o ho
  unfold Reach at hk
  unfold padding
  omega

/-- C21: when there are at least two frames to play, each output frame comes from a frame of the sample itself. -/
theorem playback_position_inside_partial (s : Setup) (hc : ¬ repeats s) (h0 : 0 ≤ s.offset) (hi : 1 ≤ s.infoEnd)
    (he : 1 ≤ s.sampleEnd_) (bs : List Block) (hj : ∀ b ∈ bs, ∀ j ∈ b.jumps, 0 ≤ j) (hfr : ∀ b ∈ bs, 0 ≤ b.frames) :
    ∀ p ∈ bs.zip (play s s.init bs), ∀ o ∈ p.2.frames, 0 ≤ o.1 ∧ o.1 < p.1.frames := by
  intro p hp o ho
  exact play_inside s 0 (by omega) hc bs hj
    (fun b hb hf => by simp only [lastIndex]; omega) hfr s.init
    ⟨by simp only [Setup.init]; omega, by simp [Setup.init], by simp [Setup.init]⟩ p hp o ho

end Verif.Playback
