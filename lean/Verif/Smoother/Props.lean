import Verif.Smoother.Model
import Mathlib.Tactic.Ring
import Mathlib.Tactic.FieldSimp
import Mathlib.Tactic.Linarith

/-! C39: the linear smoother stays between its previous value and its target and arrives in the smoothing time. -/
namespace Verif.Smoother

/-! ### Specification -/

/-- Frame `k` (counted from 0 before the first frame) of a straight line from `a` to `b` that takes `n` frames, and then
stays at `b`. -/
def ramp (a b : ℚ) (n k : Nat) : ℚ := a + (b - a) * (min k n : Nat) / n

/-! ### Lemmas -/

theorem frames_length (f : ℚ → ℚ) (n : Nat) (c : ℚ) : (frames f n c).1.length = n := by
  induction n generalizing c with
  | zero => rfl
  | succ n ih => simp [frames, ih]

theorem move_length (n : Nat) (s : State) : (move n s).1.length = n := by
  unfold move; split
  · exact frames_length _ _ _
  · split
    · exact frames_length _ _ _
    · simp

theorem frames_all (f : ℚ → ℚ) (P : ℚ → Prop) (hf : ∀ c, P c → P (f c)) (n : Nat) (c : ℚ) (hc : P c) :
    (∀ y ∈ (frames f n c).1, P y) ∧ P (frames f n c).2 := by
  induction n generalizing c with
  | zero => exact ⟨by simp [frames], hc⟩
  | succ n ih =>
    have := ih (f c) (hf c hc)
    refine ⟨fun y hy => ?_, this.2⟩
    simp only [frames, List.mem_cons] at hy
    rcases hy with rfl | hy
    · exact hf c hc
    · exact this.1 y hy

/-- What the step always satisfies: it points from the current value to the target. -/
def Toward (s : State) : Prop := (s.current < s.target → 0 < s.step) ∧ (s.target < s.current → s.step < 0)

theorem retarget_toward {n : Nat} {sf : Int} {s : State} {v : ℚ} (hn : 0 < n) (h : Toward s) :
    Toward (retarget n sf s v) := by
  unfold retarget
  split
  · have hp : (0 : ℚ) < ((max (n : Int) sf : Int) : ℚ) := by
      have : (0 : Int) < max (n : Int) sf := by omega
      exact_mod_cast this
    constructor
    · intro h1; dsimp only at h1 ⊢
      exact div_pos (by linarith) hp
    · intro h1; dsimp only at h1 ⊢
      exact div_neg_of_neg_of_pos (by linarith) hp
  · exact h

theorem retarget_target (n : Nat) (sf : Int) (s : State) (v : ℚ) :
    (retarget n sf s v).target = v ∧ (retarget n sf s v).current = s.current := by
  unfold retarget
  split
  · exact ⟨rfl, rfl⟩
  · rename_i h
    exact ⟨not_not.mp h, rfl⟩

/-- A group of frames stays between the current value and the target, and keeps pointing to the target. -/
theorem move_hull {n : Nat} {s : State} {lo hi : ℚ} (h : Toward s) (hc : lo ≤ s.current ∧ s.current ≤ hi)
    (ht : lo ≤ s.target ∧ s.target ≤ hi) :
    (∀ y ∈ (move n s).1, lo ≤ y ∧ y ≤ hi) ∧ (lo ≤ (move n s).2.current ∧ (move n s).2.current ≤ hi) ∧
    Toward (move n s).2 ∧ (move n s).2.target = s.target ∧ (move n s).2.step = s.step := by
  unfold move
  split
  · rename_i h1
    have hs := h.1 h1
    have := frames_all (fun c => min s.target (c + s.step)) (fun c => lo ≤ c ∧ c ≤ s.target)
      (fun c hcc => ⟨le_min ht.1 (by linarith [hcc.1]), min_le_left _ _⟩) n s.current ⟨hc.1, le_of_lt h1⟩
    refine ⟨fun y hy => ⟨(this.1 y hy).1, (this.1 y hy).2.trans ht.2⟩, ⟨this.2.1, this.2.2.trans ht.2⟩, ⟨fun _ => hs, ?_⟩, rfl, rfl⟩
    intro h2; dsimp only at h2; exact absurd this.2.2 (not_le.mpr h2)
  · split
    · rename_i h1
      have hs := h.2 h1
      have := frames_all (fun c => max s.target (c + s.step)) (fun c => s.target ≤ c ∧ c ≤ hi)
        (fun c hcc => ⟨le_max_left _ _, max_le ht.2 (by linarith [hcc.2])⟩) n s.current ⟨le_of_lt h1, hc.2⟩
      refine ⟨fun y hy => ⟨ht.1.trans (this.1 y hy).1, (this.1 y hy).2⟩, ⟨ht.1.trans this.2.1, this.2.2⟩, ⟨?_, fun _ => hs⟩, rfl, rfl⟩
      intro h2; dsimp only at h2; exact absurd this.2.1 (not_le.mpr h2)
    · refine ⟨fun y hy => ?_, hc, h, rfl, rfl⟩
      rw [List.eq_of_mem_replicate hy]; exact ht

theorem group_hull {n : Nat} {sf : Int} {s : State} {lo hi v : ℚ} (hn : 0 < n) (h : Toward s)
    (hc : lo ≤ s.current ∧ s.current ≤ hi) (hv : lo ≤ v ∧ v ≤ hi) :
    (∀ y ∈ (group n sf s v).1, lo ≤ y ∧ y ≤ hi) ∧ (lo ≤ (group n sf s v).2.current ∧ (group n sf s v).2.current ≤ hi) ∧
    Toward (group n sf s v).2 ∧ (group n sf s v).2.target = v := by
  have hr := retarget_target n sf s v
  have := move_hull (n := n) (s := retarget n sf s v) (lo := lo) (hi := hi) (retarget_toward hn h)
    (by rw [hr.2]; exact hc) (by rw [hr.1]; exact hv)
  exact ⟨this.1, this.2.1, this.2.2.1, by rw [group, this.2.2.2.1, hr.1]⟩

theorem getD_mem {xs : List ℚ} {i : Nat} (h : i < xs.length) : xs.getD i 0 ∈ xs := by
  have : xs.getD i 0 = xs[i] := by simp [List.getD, List.getElem?_eq_getElem h]
  rw [this]; exact List.getElem_mem h

theorem getLastD_mem {xs : List ℚ} (h : xs.length ≠ 0) : xs.getLastD 0 ∈ xs := by
  cases xs with
  | nil => simp at h
  | cons a t => rw [List.getLastD_cons]; exact List.getLastD_mem_cons

theorem groups_hull {sf : Int} {lo hi : ℚ} (xs : List ℚ) (s : State) (h : Toward s)
    (hc : lo ≤ s.current ∧ s.current ≤ hi) (hx : ∀ x ∈ xs, lo ≤ x ∧ x ≤ hi) :
    (∀ y ∈ (groups sf s xs).1, lo ≤ y ∧ y ≤ hi) ∧ (lo ≤ (groups sf s xs).2.current ∧ (groups sf s xs).2.current ≤ hi) ∧
    Toward (groups sf s xs).2 := by
  fun_induction groups sf s xs with
  | case1 s xs hl ih =>
    have g := group_hull (n := 16) (sf := sf) (by decide) h hc (hx _ (getD_mem (i := 15) (by omega)))
    have ih := ih g.2.2.1 g.2.1 (fun x hxx => hx x (List.mem_of_mem_drop hxx))
    refine ⟨fun y hy => ?_, ih.2⟩
    rcases List.mem_append.mp hy with hy | hy
    · exact g.1 y hy
    · exact ih.1 y hy
  | case2 s xs hl h0 => exact ⟨by simp, hc, h⟩
  | case3 s xs hl h0 =>
    have g := group_hull (n := xs.length) (sf := sf) (by omega) h hc (hx _ (getLastD_mem h0))
    exact ⟨g.1, g.2.1, g.2.2.1⟩

theorem reset_toward (v : ℚ) : Toward (reset v) := ⟨fun h => absurd h (lt_irrefl _), fun h => absurd h (lt_irrefl _)⟩

theorem process_hull {sf : Int} {lo hi : ℚ} (xs : List ℚ) (sc : Bool) (s : State) (h : Toward s)
    (hc : lo ≤ s.current ∧ s.current ≤ hi) (hx : ∀ x ∈ xs, lo ≤ x ∧ x ≤ hi) :
    (∀ y ∈ (process sf s xs sc).1, lo ≤ y ∧ y ≤ hi) ∧
    (lo ≤ (process sf s xs sc).2.current ∧ (process sf s xs sc).2.current ≤ hi) ∧ Toward (process sf s xs sc).2 := by
  unfold process
  split
  · exact ⟨by simp, hc, h⟩
  · rename_i h0
    split
    · exact ⟨hx, hx _ (getLastD_mem h0), reset_toward _⟩
    · exact groups_hull xs s h hc hx

theorem run_hull {sf : Int} {lo hi : ℚ} (bs : List (List ℚ × Bool)) (s : State) (h : Toward s)
    (hc : lo ≤ s.current ∧ s.current ≤ hi) (hx : ∀ b ∈ bs, ∀ x ∈ b.1, lo ≤ x ∧ x ≤ hi) :
    (∀ y ∈ (run sf s bs).1, lo ≤ y ∧ y ≤ hi) ∧ (lo ≤ (run sf s bs).2.current ∧ (run sf s bs).2.current ≤ hi) ∧
    Toward (run sf s bs).2 := by
  induction bs generalizing s with
  | nil => exact ⟨by simp [run], hc, h⟩
  | cons b bs ih =>
    obtain ⟨xs, sc⟩ := b
    have p := process_hull (sf := sf) xs sc s h hc (hx (xs, sc) (by simp))
    have ih := ih _ p.2.2 p.2.1 (fun b hb => hx b (by simp [hb]))
    refine ⟨fun y hy => ?_, ih.2⟩
    rcases List.mem_append.mp hy with hy | hy
    · exact p.1 y hy
    · exact ih.1 y hy

/-! ### The ramp -/

theorem ramp_zero (a b : ℚ) (n : Nat) : ramp a b n 0 = a := by simp [ramp]

theorem ramp_end (a b : ℚ) {n k : Nat} (hn : 0 < n) (h : n ≤ k) : ramp a b n k = b := by
  have : (n : ℚ) ≠ 0 := by positivity
  unfold ramp; rw [min_eq_right h]; field_simp; ring

theorem ramp_before (a b : ℚ) {n k : Nat} (h : k ≤ n) : ramp a b n k = a + k * ((b - a) / n) := by
  unfold ramp; rw [min_eq_left h]; ring

theorem ramp_up (a b : ℚ) {n : Nat} (hn : 0 < n) (k : Nat) (h : a ≤ b) :
    ramp a b n (k + 1) = min b (ramp a b n k + (b - a) / n) := by
  have hq : (0 : ℚ) < n := by positivity
  have hd : 0 ≤ (b - a) / n := div_nonneg (by linarith) hq.le
  have hb : b = a + n * ((b - a) / n) := by field_simp; ring
  rcases Nat.lt_or_ge k n with hk | hk
  · rw [ramp_before a b (show k + 1 ≤ n by omega), ramp_before a b (show k ≤ n by omega)]
    have h1 : a + ((k + 1 : Nat) : ℚ) * ((b - a) / n) ≤ b := by
      have : ((k + 1 : Nat) : ℚ) ≤ n := by exact_mod_cast hk
      have := mul_le_mul_of_nonneg_right this hd
      linarith
    have h2 : a + k * ((b - a) / n) + (b - a) / n = a + ((k + 1 : Nat) : ℚ) * ((b - a) / n) := by push_cast; ring
    rw [h2, min_eq_right h1]
  · rw [ramp_end a b hn (show n ≤ k + 1 by omega), ramp_end a b hn hk, min_eq_left (by linarith)]

theorem ramp_down (a b : ℚ) {n : Nat} (hn : 0 < n) (k : Nat) (h : b ≤ a) :
    ramp a b n (k + 1) = max b (ramp a b n k + (b - a) / n) := by
  have hq : (0 : ℚ) < n := by positivity
  have hd : (b - a) / n ≤ 0 := div_nonpos_of_nonpos_of_nonneg (by linarith) hq.le
  have hb : b = a + n * ((b - a) / n) := by field_simp; ring
  rcases Nat.lt_or_ge k n with hk | hk
  · rw [ramp_before a b (show k + 1 ≤ n by omega), ramp_before a b (show k ≤ n by omega)]
    have h1 : b ≤ a + ((k + 1 : Nat) : ℚ) * ((b - a) / n) := by
      have : ((k + 1 : Nat) : ℚ) ≤ n := by exact_mod_cast hk
      have := mul_le_mul_of_nonpos_right this hd
      linarith
    have h2 : a + k * ((b - a) / n) + (b - a) / n = a + ((k + 1 : Nat) : ℚ) * ((b - a) / n) := by push_cast; ring
    rw [h2, max_eq_right h1]
  · rw [ramp_end a b hn (show n ≤ k + 1 by omega), ramp_end a b hn hk, max_eq_left (by linarith)]

/-- The frames `k+1 … k+m` of the ramp. -/
def rampPart (a b : ℚ) (n k m : Nat) : List ℚ := (List.range m).map (fun i => ramp a b n (k + i + 1))

theorem rampPart_succ (a b : ℚ) (n k m : Nat) :
    rampPart a b n k (m + 1) = ramp a b n (k + 1) :: rampPart a b n (k + 1) m := by
  simp only [rampPart, List.range_succ_eq_map, List.map_cons, List.map_map]
  congr 1
  apply List.map_congr_left
  intro i _; simp only [Function.comp]; congr 1; omega

theorem rampPart_append (a b : ℚ) (n k m l : Nat) :
    rampPart a b n k m ++ rampPart a b n (k + m) l = rampPart a b n k (m + l) := by
  induction m generalizing k with
  | zero => simp [rampPart]
  | succ m ih =>
    rw [rampPart_succ, show m + 1 + l = (m + l) + 1 by omega, rampPart_succ, List.cons_append, ← ih]
    rw [show k + 1 + m = k + (m + 1) by omega]

theorem frames_ramp (a b : ℚ) (n : Nat) (f : ℚ → ℚ) (hf : ∀ k, f (ramp a b n k) = ramp a b n (k + 1)) (m k : Nat) :
    frames f m (ramp a b n k) = (rampPart a b n k m, ramp a b n (k + m)) := by
  induction m generalizing k with
  | zero => rfl
  | succ m ih =>
    simp only [frames]
    rw [hf, ih, rampPart_succ, show k + 1 + m = k + (m + 1) by omega]

/-- The smoother is `k` frames into a ramp from `a` to `b` of `n` frames. -/
structure RampAt (a b : ℚ) (n k : Nat) (s : State) : Prop where
  cur : s.current = ramp a b n k
  tgt : s.target = b
  stp : s.current ≠ b → s.step = (b - a) / n

theorem rampAt_rest {a b : ℚ} {n k : Nat} {s : State} (hn : 0 < n) (h : RampAt a b n k s) (hc : s.current = b) (m : Nat) :
    ramp a b n (k + m) = b := by
  rcases Nat.lt_or_ge k n with hk | hk
  · have hab : a = b := by
      have h1 := h.cur.symm.trans hc
      rw [ramp_before a b hk.le] at h1
      have hq : (0 : ℚ) < n := by positivity
      have hq2 : ((n : ℚ) - k) ≠ 0 := by
        have : (k : ℚ) < n := by exact_mod_cast hk
        linarith
      have : (a - b) * (n - k) = 0 := by
        field_simp at h1
        linarith
      rcases mul_eq_zero.mp this with h2 | h2
      · linarith
      · exact absurd h2 hq2
    subst hab
    simp [ramp]
  · exact ramp_end a b hn (by omega)

theorem move_ramp {a b : ℚ} {n k : Nat} {s : State} (hn : 0 < n) (h : RampAt a b n k s) (m : Nat) :
    (move m s).1 = rampPart a b n k m ∧ RampAt a b n (k + m) (move m s).2 := by
  have hup : ∀ k, min b (ramp a b n k) = ramp a b n k ∨ b ≤ a := by
    intro k
    by_cases hab : a ≤ b
    · left
      cases k with
      | zero => rw [ramp_zero]; exact min_eq_right hab
      | succ k => rw [ramp_up a b hn k hab]; simp
    · right; linarith
  by_cases hlt : s.target > s.current
  · have hab : a ≤ b := by
      by_contra hh
      rw [h.tgt, h.cur] at hlt
      cases k with
      | zero => rw [ramp_zero] at hlt; linarith
      | succ k => rw [ramp_down a b hn k (by linarith)] at hlt; exact absurd hlt (by simp)
    have hst := h.stp (by rw [h.tgt] at hlt; linarith)
    have hfr := frames_ramp a b n (fun c => min s.target (c + s.step))
      (fun k => by rw [h.tgt, hst]; exact (ramp_up a b hn k hab).symm) m k
    rw [← h.cur] at hfr
    unfold move
    rw [if_pos hlt]
    rw [hfr]
    exact ⟨rfl, rfl, h.tgt, fun _ => hst⟩
  · by_cases hgt : s.target < s.current
    · have hab : b ≤ a := by
        by_contra hh
        rw [h.tgt, h.cur] at hgt
        cases k with
        | zero => rw [ramp_zero] at hgt; linarith
        | succ k => rw [ramp_up a b hn k (by linarith)] at hgt; exact absurd hgt (by simp)
      have hst := h.stp (by rw [h.tgt] at hgt; linarith)
      have hfr := frames_ramp a b n (fun c => max s.target (c + s.step))
        (fun k => by rw [h.tgt, hst]; exact (ramp_down a b hn k hab).symm) m k
      rw [← h.cur] at hfr
      unfold move
      rw [if_neg hlt, if_pos hgt]
      rw [hfr]
      exact ⟨rfl, rfl, h.tgt, fun _ => hst⟩
    · have hc : s.current = b := by rw [← h.tgt]; linarith [not_lt.mp hgt, not_lt.mp hlt]
      unfold move
      rw [if_neg hlt, if_neg hgt]
      refine ⟨?_, ?_, h.tgt, fun hh => absurd hc hh⟩
      · rw [h.tgt]
        symm
        rw [List.eq_replicate_iff]
        refine ⟨by simp [rampPart], fun y hy => ?_⟩
        simp only [rampPart, List.mem_map] at hy
        obtain ⟨i, _, rfl⟩ := hy
        exact rampAt_rest hn h hc (i + 1)
      · rw [hc]; exact (rampAt_rest hn h hc m).symm

theorem group_ramp {a b : ℚ} {n k m : Nat} {sf : Int} {s : State} (hn : 0 < n) (h : RampAt a b n k s) :
    (group m sf s b).1 = rampPart a b n k m ∧ RampAt a b n (k + m) (group m sf s b).2 := by
  have hr : retarget m sf s b = s := by
    unfold retarget; rw [if_neg (by simp [h.tgt])]
  unfold group; rw [hr]; exact move_ramp hn h m

theorem groups_ramp {a b : ℚ} {n : Nat} {sf : Int} (hn : 0 < n) (xs : List ℚ) (s : State) (k : Nat) (h : RampAt a b n k s)
    (hx : ∀ x ∈ xs, x = b) :
    (groups sf s xs).1 = rampPart a b n k xs.length ∧ RampAt a b n (k + xs.length) (groups sf s xs).2 := by
  fun_induction groups sf s xs generalizing k with
  | case1 s xs hl ih =>
    have hb := hx _ (getD_mem (i := 15) (xs := xs) (by omega))
    rw [hb] at ih ⊢
    have g := group_ramp (m := 16) (sf := sf) hn h
    have ih := ih (k + 16) g.2 (fun x hxx => hx x (List.mem_of_mem_drop hxx))
    have hlen : xs.length = 16 + (xs.drop 16).length := by simp; omega
    constructor
    · rw [g.1, ih.1, hlen, rampPart_append]
    · rw [hlen, ← Nat.add_assoc]; exact ih.2
  | case2 s xs hl h0 => rw [h0]; exact ⟨rfl, h⟩
  | case3 s xs hl h0 =>
    rw [hx _ (getLastD_mem h0)]
    exact group_ramp hn h

theorem eq_rampPart_rest {a b : ℚ} {n k : Nat} {s : State} (hn : 0 < n) (h : RampAt a b n k s) (hc : s.current = b)
    (xs : List ℚ) (hx : ∀ x ∈ xs, x = b) : xs = rampPart a b n k xs.length := by
  have h1 : xs = List.replicate xs.length b := List.eq_replicate_iff.mpr ⟨rfl, hx⟩
  have h2 : rampPart a b n k xs.length = List.replicate xs.length b := by
    rw [List.eq_replicate_iff]
    refine ⟨by simp [rampPart], fun y hy => ?_⟩
    simp only [rampPart, List.mem_map] at hy
    obtain ⟨i, _, rfl⟩ := hy
    exact rampAt_rest hn h hc (i + 1)
  rw [h2]; exact h1

theorem process_ramp {a b : ℚ} {n : Nat} {sf : Int} (hsf : 2 ≤ sf) (hn : 0 < n) (xs : List ℚ) (sc : Bool) (s : State) (k : Nat)
    (h : RampAt a b n k s) (hx : ∀ x ∈ xs, x = b) :
    (process sf s xs sc).1 = rampPart a b n k xs.length ∧ RampAt a b n (k + xs.length) (process sf s xs sc).2 := by
  unfold process
  split
  · rename_i h0; rw [h0]; exact ⟨rfl, h⟩
  · rename_i h0
    split
    · rename_i h1
      have h1 := h1.resolve_left (by omega)
      have hc : s.current = b := h1.2.1.trans h.tgt
      refine ⟨eq_rampPart_rest hn h hc xs hx, ?_, ?_, ?_⟩
      · rw [hx _ (getLastD_mem h0), rampAt_rest hn h hc]; rfl
      · rw [hx _ (getLastD_mem h0)]; rfl
      · rw [hx _ (getLastD_mem h0)]; intro hh; exact absurd rfl hh
    · exact groups_ramp hn xs s k h hx

/-- The number of frames in a history. -/
def total (bs : List (List ℚ × Bool)) : Nat := (bs.map (fun b => b.1.length)).sum

theorem run_ramp {a b : ℚ} {n : Nat} {sf : Int} (hsf : 2 ≤ sf) (hn : 0 < n) (bs : List (List ℚ × Bool)) (s : State) (k : Nat)
    (h : RampAt a b n k s) (hx : ∀ p ∈ bs, ∀ x ∈ p.1, x = b) :
    (run sf s bs).1 = rampPart a b n k (total bs) ∧ RampAt a b n (k + total bs) (run sf s bs).2 := by
  induction bs generalizing s k with
  | nil => exact ⟨rfl, h⟩
  | cons p bs ih =>
    obtain ⟨xs, sc⟩ := p
    have q := process_ramp hsf hn xs sc s k h (hx (xs, sc) (by simp))
    have ih := ih _ _ q.2 (fun p hp => hx p (by simp [hp]))
    have ht : total ((xs, sc) :: bs) = xs.length + total bs := by simp [total]
    rw [ht, ← Nat.add_assoc, ← rampPart_append]
    refine ⟨?_, ih.2⟩
    simp only [run]
    rw [q.1, ih.1]

/-- The first block with a new input value: after it the smoother is on a ramp. -/
theorem first_ramp {v : ℚ} {sf : Int} (hsf : 2 ≤ sf) (xs : List ℚ) (hx : ∀ x ∈ xs, x = v) (h0 : xs.length ≠ 0)
    (sc : Bool) (s : State) (hs : s.target ≠ v) :
    ∃ n : Nat, sf ≤ n ∧ (n : Int) ≤ max 16 sf ∧ (process sf s xs sc).1 = rampPart s.current v n 0 xs.length ∧
      RampAt s.current v n xs.length (process sf s xs sc).2 := by
  have hp : process sf s xs sc = groups sf s xs := by
    unfold process
    rw [if_neg h0, if_neg]
    rintro (h | ⟨_, h1, h2⟩)
    · omega
    · apply hs
      rw [← h1, h2]
      cases xs with
      | nil => simp at h0
      | cons a t => simp [hx a (by simp)]
  rw [hp]
  have start : ∀ m : Nat, 0 < m → ∃ n : Nat, sf ≤ n ∧ (n : Int) = max (m : Int) sf ∧
      RampAt s.current v n 0 (retarget m sf s v) := by
    intro m hm
    obtain ⟨n, hn⟩ : ∃ n : Nat, (n : Int) = max (m : Int) sf := ⟨(max (m : Int) sf).toNat, by omega⟩
    refine ⟨n, by omega, hn, ?_, ?_, ?_⟩
    · rw [ramp_zero]; exact (retarget_target _ _ _ _).2
    · exact (retarget_target _ _ _ _).1
    · intro _
      unfold retarget; rw [if_pos hs]
      simp only
      rw [← hn]; push_cast; rfl
  unfold groups
  split
  · rename_i hl
    obtain ⟨n, h1, h2, h3⟩ := start 16 (by decide)
    have hv := hx _ (getD_mem (i := 15) (xs := xs) (by omega))
    rw [hv]
    have g := move_ramp (m := 16) (show 0 < n by omega) h3
    have r := groups_ramp (sf := sf) (show 0 < n by omega) (xs.drop 16) _ _ g.2 (fun x hxx => hx x (List.mem_of_mem_drop hxx))
    have hlen : xs.length = 16 + (xs.drop 16).length := by simp; omega
    refine ⟨n, h1, by omega, ?_, ?_⟩
    · rw [show (group 16 sf s v) = move 16 (retarget 16 sf s v) from rfl, r.1, g.1, rampPart_append, hlen]
    · rw [show (group 16 sf s v) = move 16 (retarget 16 sf s v) from rfl, hlen]
      have := r.2
      rw [Nat.zero_add] at this
      exact this
  · obtain ⟨n, h1, h2, h3⟩ := start xs.length (by omega)
    rw [hx _ (getLastD_mem h0)]
    have g := move_ramp (m := xs.length) (show 0 < n by omega) h3
    refine ⟨n, h1, by omega, g.1, ?_⟩
    have := g.2
    rwa [Nat.zero_add] at this

/-! ### Theorems -/

/-- **C39, bounds.** Whatever blocks are processed, with whatever smoothing time, from a smoother that was reset to `v0`:
no output leaves any interval that holds `v0` and all the input values. -/
theorem smoother_stays_between (sf : Int) (v0 lo hi : ℚ) (bs : List (List ℚ × Bool)) (h0 : lo ≤ v0 ∧ v0 ≤ hi)
    (hx : ∀ b ∈ bs, ∀ x ∈ b.1, lo ≤ x ∧ x ≤ hi) : ∀ y ∈ (run sf (reset v0) bs).1, lo ≤ y ∧ y ≤ hi :=
  (run_hull bs (reset v0) (reset_toward v0) h0 hx).1

example : (run 20 (reset 0) [(List.replicate 3 1, false), ([1/2], true)]).1 = [1/20, 1/10, 3/20, 3/20 + 7/400] := by decide +kernel

/-- As many outputs as inputs. -/
theorem smoother_length (sf : Int) (s : State) (xs : List ℚ) (sc : Bool) : (process sf s xs sc).1.length = xs.length := by
  have hg : ∀ (s : State) (xs : List ℚ), (groups sf s xs).1.length = xs.length := by
    intro s xs
    fun_induction groups sf s xs with
    | case1 s xs hl ih =>
      rw [List.length_append, ih, group, move_length, List.length_drop]; omega
    | case2 s xs hl h0 => simp [h0]
    | case3 s xs hl h0 => rw [group, move_length]
  unfold process
  split
  · simp_all
  · split
    · rfl
    · exact hg s xs

/-- **C39, time.** A smoother of 16 frames or more (any smoothing time from 16 frames), whose target is not `v` yet, receives the
constant input `v` in blocks of any sizes: whatever the split, the outputs are the straight line from the current value
to `v` in exactly the smoothing time, then `v`. -/
theorem smoother_line_partial (n : Nat) (hn : 16 ≤ n) (s : State) (v : ℚ) (hs : s.target ≠ v) (bs : List (List ℚ × Bool))
    (hx : ∀ b ∈ bs, ∀ x ∈ b.1, x = v) :
    (run n s bs).1 = (List.range (total bs)).map (fun k => ramp s.current v n (k + 1)) := by
  have key : (run n s bs).1 = rampPart s.current v n 0 (total bs) := by
    induction bs with
    | nil => rfl
    | cons p bs ih =>
      obtain ⟨xs, sc⟩ := p
      by_cases h0 : xs.length = 0
      · have hp : process n s xs sc = ([], s) := by unfold process; rw [if_pos h0]
        have := ih (fun b hb => hx b (by simp [hb]))
        simp only [run, hp, List.nil_append]
        rw [this]; simp [total, h0]
      · obtain ⟨m, h1, h2, h3, h4⟩ := first_ramp (sf := n) (by omega) xs (hx (xs, sc) (by simp)) h0 sc s hs
        have hm : m = n := by omega
        subst hm
        have r := run_ramp (sf := m) (by omega) (show 0 < m by omega) bs _ _ h4 (fun b hb => hx b (by simp [hb]))
        simp only [run]
        rw [h3, r.1]
        have := rampPart_append s.current v m 0 xs.length (total bs)
        rw [Nat.zero_add] at this
        rw [this]; simp [total]
  rw [key]
  apply List.map_congr_left
  intro i _; rw [Nat.zero_add]

example : (run 16 (reset 0) [([1, 1, 1], false), ([1], true)]).1 = [1/16, 2/16, 3/16, 4/16] := by decide +kernel

/-- **C39, arrival.** For every smoothing time of 2 frames or more and every split into blocks, a constant input is reached after
`max 16 n` frames at the latest, and kept. -/
theorem smoother_arrives (n : Nat) (hn : 2 ≤ n) (s : State) (v : ℚ) (hs : s.target ≠ v) (bs : List (List ℚ × Bool))
    (hx : ∀ b ∈ bs, ∀ x ∈ b.1, x = v) (k : Nat) (hk : max 16 n ≤ k + 1) (y : ℚ) (hy : (run n s bs).1[k]? = some y) : y = v := by
  induction bs with
  | nil => simp [run] at hy
  | cons p bs ih =>
    obtain ⟨xs, sc⟩ := p
    by_cases h0 : xs.length = 0
    · have hp : process n s xs sc = ([], s) := by unfold process; rw [if_pos h0]
      simp only [run, hp, List.nil_append] at hy
      exact ih (fun b hb => hx b (by simp [hb])) hy
    · obtain ⟨m, h1, h2, h3, h4⟩ := first_ramp (sf := n) (by omega) xs (hx (xs, sc) (by simp)) h0 sc s hs
      have r := run_ramp (sf := n) (by omega) (show 0 < m by omega) bs _ _ h4 (fun b hb => hx b (by simp [hb]))
      simp only [run] at hy
      rw [h3, r.1] at hy
      have ha := rampPart_append s.current v m 0 xs.length (total bs)
      rw [Nat.zero_add] at ha
      rw [ha] at hy
      simp only [rampPart, List.getElem?_map, Option.map_eq_some_iff] at hy
      obtain ⟨i, hi, rfl⟩ := hy
      rw [List.getElem?_eq_some_iff] at hi
      obtain ⟨_, rfl⟩ := hi
      exact ramp_end _ _ (by omega) (by simp; omega)

example : (run 2 (reset 0) [(List.replicate 15 1, false), ([1, 1], true)]).1[15]? = some 1 := by decide +kernel

/-- Below 16 frames of smoothing the outputs depend on how the frames are split into blocks. -/
theorem smoother_split_violated :
    (run 4 (reset 0) [(List.replicate 8 1, false)]).1 ≠ (run 4 (reset 0) [(List.replicate 4 1, false), (List.replicate 4 1, false)]).1 ∧
    (run 4 (reset 0) [(List.replicate 8 1, false)]).1[3]? = some (1/2) ∧
    (run 4 (reset 0) [(List.replicate 4 1, false), (List.replicate 4 1, false)]).1[3]? = some 1 := by decide +kernel

/-- With a smoothing time under 2 frames the input passes unchanged. -/
theorem smoother_off (sf : Int) (h : sf < 2) (s : State) (xs : List ℚ) (sc : Bool) : (process sf s xs sc).1 = xs := by
  unfold process
  split
  · rename_i h0; exact (List.length_eq_zero_iff.mp h0).symm
  · rw [if_pos (Or.inl h)]

example : (process 1 (reset 0) [3, 4] false).1 = [3, 4] := by decide +kernel

/-- **C39, vector code.** In every state that a history reaches, the vector code for 16 frames gives the frames of the plain loop. -/
theorem smoother_vector_code (sf : Int) (v0 v : ℚ) (bs : List (List ℚ × Bool)) :
    moveSimd (retarget 16 sf (run sf (reset v0) bs).2 v) = move 16 (retarget 16 sf (run sf (reset v0) bs).2 v) := by
  have ht : Toward (retarget 16 sf (run sf (reset v0) bs).2 v) := by
    apply retarget_toward (by decide)
    obtain ⟨lo, hlo⟩ : ∃ lo : ℚ, ∀ x ∈ v0 :: bs.flatMap (·.1), lo ≤ x := by
      induction (v0 :: bs.flatMap (·.1)) with
      | nil => exact ⟨0, by simp⟩
      | cons a t ih =>
        obtain ⟨l, hl⟩ := ih
        exact ⟨min a l, by
          intro x hx
          rcases List.mem_cons.mp hx with rfl | hx
          · exact min_le_left _ _
          · exact (min_le_right _ _).trans (hl x hx)⟩
    obtain ⟨hi, hhi⟩ : ∃ hi : ℚ, ∀ x ∈ v0 :: bs.flatMap (·.1), x ≤ hi := by
      clear hlo
      induction (v0 :: bs.flatMap (·.1)) with
      | nil => exact ⟨0, by simp⟩
      | cons a t ih =>
        obtain ⟨l, hl⟩ := ih
        exact ⟨max a l, by
          intro x hx
          rcases List.mem_cons.mp hx with rfl | hx
          · exact le_max_left _ _
          · exact (hl x hx).trans (le_max_right _ _)⟩
    exact (run_hull bs (reset v0) (reset_toward v0) ⟨hlo v0 (by simp), hhi v0 (by simp)⟩
      (fun b hb x hx => by
        have : x ∈ v0 :: bs.flatMap (·.1) := List.mem_cons_of_mem _ (List.mem_flatMap.mpr ⟨b, hb, hx⟩)
        exact ⟨hlo x this, hhi x this⟩)).2.2
  generalize retarget 16 sf (run sf (reset v0) bs).2 v = s at ht
  obtain ⟨c, t, d⟩ := s
  have up : t > c → ∀ k : ℚ, 0 ≤ k → min t (min (c + k * d) t + d) = min (c + (k + 1) * d) t := by
    intro h k _
    have hd := ht.1 h; dsimp only at hd
    rcases le_total (c + k * d) t with h1 | h1
    · rw [min_eq_left h1, show c + (k + 1) * d = c + k * d + d by ring, min_comm]
    · rw [min_eq_right h1, min_eq_left (by linarith), min_eq_right (by nlinarith)]
  have down : t < c → ∀ k : ℚ, 0 ≤ k → max t (max (c + k * d) t + d) = max (c + (k + 1) * d) t := by
    intro h k _
    have hd := ht.2 h; dsimp only at hd
    rcases le_total t (c + k * d) with h1 | h1
    · rw [max_eq_left h1, show c + (k + 1) * d = c + k * d + d by ring, max_comm]
    · rw [max_eq_right h1, max_eq_left (by linarith), max_eq_right (by nlinarith)]
  have framesUp : t > c → ∀ (m : Nat) (k : Nat), frames (fun x => min t (x + d)) m (min (c + (k : ℚ) * d) t) =
      ((List.range m).map (fun i => min (c + ((k + i + 1 : Nat) : ℚ) * d) t), min (c + ((k + m : Nat) : ℚ) * d) t) := by
    intro h m
    induction m with
    | zero => intro k; rfl
    | succ m ih =>
      intro k
      have h1 := up h k (by positivity)
      have h2 := ih (k + 1)
      push_cast at h2
      simp only [frames]
      rw [h1, h2, List.range_succ_eq_map, List.map_cons, List.map_map]
      refine Prod.ext ?_ ?_
      · simp only [Nat.add_zero]
        push_cast
        congr 1
        apply List.map_congr_left
        intro i _; simp only [Function.comp]; push_cast; ring_nf
      · simp only; push_cast; ring_nf
  have framesDown : t < c → ∀ (m : Nat) (k : Nat), frames (fun x => max t (x + d)) m (max (c + (k : ℚ) * d) t) =
      ((List.range m).map (fun i => max (c + ((k + i + 1 : Nat) : ℚ) * d) t), max (c + ((k + m : Nat) : ℚ) * d) t) := by
    intro h m
    induction m with
    | zero => intro k; rfl
    | succ m ih =>
      intro k
      have h1 := down h k (by positivity)
      have h2 := ih (k + 1)
      push_cast at h2
      simp only [frames]
      rw [h1, h2, List.range_succ_eq_map, List.map_cons, List.map_map]
      refine Prod.ext ?_ ?_
      · simp only [Nat.add_zero]
        push_cast
        congr 1
        apply List.map_congr_left
        intro i _; simp only [Function.comp]; push_cast; ring_nf
      · simp only; push_cast; ring_nf
  by_cases h1 : t > c
  · have hc : min (c + ((0 : Nat) : ℚ) * d) t = c := by simp [h1.le]
    have hf := framesUp h1 16 0
    rw [hc] at hf
    simp only [moveSimd, move]
    rw [if_pos h1, if_pos h1, hf]
    simp only [splat, lanes, Quad.list, List.range, List.range.loop, List.map_cons, List.map_nil, List.cons_append, List.nil_append]
    push_cast
    refine Prod.ext ?_ ?_
    · simp only [List.cons.injEq, and_true]
      refine ⟨?_, ?_, ?_, ?_, ?_, ?_, ?_, ?_, ?_, ?_, ?_, ?_, ?_, ?_, ?_, ?_⟩ <;> (congr 1; ring)
    · simp only [State.mk.injEq, and_true]; congr 1; ring
  · by_cases h2 : t < c
    · have hc : max (c + ((0 : Nat) : ℚ) * d) t = c := by simp [h2.le]
      have hf := framesDown h2 16 0
      rw [hc] at hf
      simp only [moveSimd, move]
      rw [if_neg h1, if_pos h2, if_neg h1, if_pos h2, hf]
      simp only [splat, lanes, Quad.list, List.range, List.range.loop, List.map_cons, List.map_nil, List.cons_append, List.nil_append]
      push_cast
      refine Prod.ext ?_ ?_
      · simp only [List.cons.injEq, and_true]
        refine ⟨?_, ?_, ?_, ?_, ?_, ?_, ?_, ?_, ?_, ?_, ?_, ?_, ?_, ?_, ?_, ?_⟩ <;> (congr 1; ring)
      · simp only [State.mk.injEq, and_true]; congr 1; ring
    · simp only [moveSimd, move]
      rw [if_neg h1, if_neg h2, if_neg h1, if_neg h2]
      rfl

example : (moveSimd ⟨0, 1, 1/10⟩).1 = [1/10, 2/10, 3/10, 4/10, 5/10, 6/10, 7/10, 8/10, 9/10, 1, 1, 1, 1, 1, 1, 1] := by decide +kernel

end Verif.Smoother
