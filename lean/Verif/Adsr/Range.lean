import Verif.Adsr.Model
import Mathlib.Tactic.FieldSimp
import Mathlib.Tactic.Ring
import Mathlib.Tactic.NormNum
import Mathlib.Tactic.Positivity
import Mathlib.Algebra.Order.Archimedean.Basic
import Mathlib.Data.Rat.Floor
import Mathlib.Algebra.Order.Ring.Archimedean

/-! Levels of the envelope (for C35). -/
namespace Verif.Adsr

/-! ### Lengths -/

theorem attackLoop_length (s : ℚ) (n : Nat) (c : ℚ) : (attackLoop s n c).1.length ≤ n := by
  induction n generalizing c with
  | zero => exact le_refl _
  | succ n ih => unfold attackLoop; split <;> [exact Nat.succ_le_succ (ih _); exact Nat.zero_le _]

theorem decayLoop_length (r b : ℚ) (n : Nat) (c : ℚ) : (decayLoop r b n c).1.length ≤ n := by
  induction n generalizing c with
  | zero => exact le_refl _
  | succ n ih => unfold decayLoop; split <;> [exact Nat.succ_le_succ (ih _); exact Nat.zero_le _]

theorem fadeLoop_length (d : ℚ) (n : Nat) (c : ℚ) : (fadeLoop d n c).1.length ≤ n := by
  induction n generalizing c with
  | zero => exact le_refl _
  | succ n ih => unfold fadeLoop; split <;> [exact Nat.succ_le_succ (ih _); exact Nat.zero_le _]

theorem sustainLoop_length (s d : ℚ) (n : Nat) (c : ℚ) : (sustainLoop s d n c).1.length = n := by
  induction n generalizing c with
  | zero => rfl
  | succ n ih => unfold sustainLoop; simp [ih]

theorem segment_length (e : Env) (size : Nat) : (segment e size).1.length ≤ size := by
  unfold segment
  split
  · simp only [List.length_replicate]; exact delayLoop_le _ _
  · exact attackLoop_length _ _ _
  · simp only [List.length_replicate]; exact delayLoop_le _ _
  · exact decayLoop_length _ _ _ _
  · split
    · exact Nat.zero_le _
    · exact le_of_eq (sustainLoop_length _ _ _ _)
  · exact decayLoop_length _ _ _ _
  · exact fadeLoop_length _ _ _
  · simp

theorem turn_length (e : Env) (n : Nat) (hn : 0 < n) : (turn e n).1.length ≤ n :=
  le_trans (segment_length _ _) (prepare_size e n hn).2

/-- Induction over the turns of a block. -/
theorem block_induct {P : Env → Prop} {Q : List ℚ → Prop} (hnil : Q []) (happ : ∀ a b, Q a → Q b → Q (a ++ b))
    (hturn : ∀ e n, 0 < n → P e → Q (turn e n).1 ∧ P (turn e n).2) (e : Env) (n : Nat) (h : P e) :
    Q (block e n).1 ∧ P (block e n).2 := by
  fun_induction block with
  | case1 => exact ⟨hnil, h⟩
  | case2 e n hn t r ih =>
    obtain ⟨h1, h2⟩ := hturn e n (Nat.pos_of_ne_zero hn) h
    obtain ⟨h3, h4⟩ := ih h2
    exact ⟨happ _ _ h1 h3, h4⟩

/-- C35: every request for `n` frames is answered with exactly `n` frames, from any state (the loop always ends). -/
theorem block_length (e : Env) (n : Nat) : (block e n).1.length = n := by
  fun_induction block with
  | case1 => rfl
  | case2 e n hn t r ih =>
    have := turn_length e n (Nat.pos_of_ne_zero hn)
    show (t.1 ++ r.1).length = n
    rw [List.length_append, ih]
    show (turn e n).1.length + (n - (turn e n).1.length) = n
    omega

/-! ### Range -/

/-- Reasonable parameters: times are at least 0. -/
structure Params.Ok (p : Params) : Prop where
  step : 0 < p.attackStep
  decay : 0 ≤ p.decayRate ∧ p.decayRate ≤ 1
  rel : 0 ≤ p.releaseRate ∧ p.releaseRate ≤ 1

/-- Invariant for the bound `b`; `canc` when releases can be cancelled. -/
structure InRange (b : ℚ) (canc : Bool) (e : Env) : Prop where
  rate : 0 < e.sampleRate
  b0 : 0 ≤ b
  bv : vz / e.trans ≤ b
  bc : canc = true → 1 / e.trans ≤ b
  step : 0 < e.attackStep
  decay : 0 ≤ e.decayRate ∧ e.decayRate ≤ 1
  rel : 0 ≤ e.releaseRate ∧ e.releaseRate ≤ 1
  start : 0 ≤ e.start ∧ e.start ≤ 1
  sustain : 0 ≤ e.sustain ∧ e.sustain ≤ 1
  cur : -b ≤ e.cur ∧ e.cur ≤ 1
  delta : e.state = .sustain ∨ canc = true → -b ≤ e.delta ∧ e.delta ≤ 0

/-- All values in `[-b, 1]`. -/
def Values (b : ℚ) (l : List ℚ) : Prop := ∀ y ∈ l, -b ≤ y ∧ y ≤ 1

theorem attackLoop_range {b s : ℚ} (hs : 0 < s) (n : Nat) (c : ℚ) (hc : -b ≤ c ∧ c ≤ 1) :
    Values b (attackLoop s n c).1 ∧ -b ≤ (attackLoop s n c).2 := by
  induction n generalizing c with
  | zero => exact ⟨by simp [Values, attackLoop], hc.1⟩
  | succ n ih =>
    unfold attackLoop
    by_cases h : c + s < 1
    · rw [if_pos h]
      have hc' : -b ≤ c + s ∧ c + s ≤ 1 := ⟨by linarith, le_of_lt h⟩
      obtain ⟨h1, h2⟩ := ih (c + s) hc'
      refine ⟨?_, h2⟩
      intro y hy
      rcases List.mem_cons.mp hy with rfl | hy
      · exact hc'
      · exact h1 y hy
    · rw [if_neg h]
      exact ⟨by simp [Values], by linarith⟩

theorem mul_range {b r c : ℚ} (hb : 0 ≤ b) (hr : 0 ≤ r ∧ r ≤ 1) (hc : -b ≤ c ∧ c ≤ 1) : -b ≤ c * r ∧ c * r ≤ 1 := by
  constructor
  · nlinarith [mul_nonneg hr.1 (by linarith : 0 ≤ c + b), mul_nonneg hb (by linarith : 0 ≤ 1 - r)]
  · nlinarith [mul_nonneg hr.1 (by linarith : 0 ≤ 1 - c)]

theorem decayLoop_range {b r bd : ℚ} (hb : 0 ≤ b) (hr : 0 ≤ r ∧ r ≤ 1) (n : Nat) (c : ℚ) (hc : -b ≤ c ∧ c ≤ 1) :
    Values b (decayLoop r bd n c).1 ∧ (-b ≤ (decayLoop r bd n c).2 ∧ (decayLoop r bd n c).2 ≤ 1) := by
  induction n generalizing c with
  | zero => exact ⟨by simp [Values, decayLoop], hc⟩
  | succ n ih =>
    unfold decayLoop
    have hc' := mul_range hb hr hc
    by_cases h : c * r > bd
    · rw [if_pos h]
      obtain ⟨h1, h2⟩ := ih (c * r) hc'
      refine ⟨?_, h2⟩
      intro y hy
      rcases List.mem_cons.mp hy with rfl | hy
      · exact hc'
      · exact h1 y hy
    · rw [if_neg h]
      exact ⟨by simp [Values], hc'⟩

theorem fadeLoop_range {b d : ℚ} (hd : d ≤ 0) (hb : 0 ≤ b) (n : Nat) (c : ℚ) (hc : c ≤ 1) :
    Values b (fadeLoop d n c).1 ∧ (fadeLoop d n c).2 ≤ 1 := by
  induction n generalizing c with
  | zero => exact ⟨by simp [Values, fadeLoop], hc⟩
  | succ n ih =>
    unfold fadeLoop
    by_cases h : c + d > 0
    · rw [if_pos h]
      obtain ⟨h1, h2⟩ := ih (c + d) (by linarith)
      refine ⟨?_, h2⟩
      intro y hy
      rcases List.mem_cons.mp hy with rfl | hy
      · exact ⟨by linarith, by linarith⟩
      · exact h1 y hy
    · rw [if_neg h]
      exact ⟨by simp [Values], by show c + d ≤ 1; linarith⟩

/-- Values of the fade-out even with a positive slope are above 0; the upper bound needs the slope. -/
theorem sustainLoop_range {b s d : ℚ} (hs : 0 ≤ s) (hd : -b ≤ d ∧ d ≤ 0) (n : Nat) (c : ℚ) (hc : -b ≤ c ∧ c ≤ 1) :
    Values b (sustainLoop s d n c).1 ∧ (-b ≤ (sustainLoop s d n c).2 ∧ (sustainLoop s d n c).2 ≤ 1) := by
  induction n generalizing c with
  | zero => exact ⟨by simp [Values, sustainLoop], hc⟩
  | succ n ih =>
    unfold sustainLoop
    have hc' : -b ≤ (if c > s then c + d else c) ∧ (if c > s then c + d else c) ≤ 1 := by
      split
      · rename_i h
        exact ⟨by linarith, by linarith⟩
      · exact hc
    obtain ⟨h1, h2⟩ := ih _ hc'
    refine ⟨?_, h2⟩
    intro y hy
    rcases List.mem_cons.mp hy with rfl | hy
    · exact hc'
    · exact h1 y hy

theorem values_replicate {b c : ℚ} (n : Nat) (hc : -b ≤ c ∧ c ≤ 1) : Values b (List.replicate n c) := by
  intro y hy
  rw [List.eq_of_mem_replicate hy]; exact hc

theorem values_append {b : ℚ} (x y : List ℚ) (hx : Values b x) (hy : Values b y) : Values b (x ++ y) := by
  intro z hz
  rcases List.mem_append.mp hz with h | h
  · exact hx z h
  · exact hy z h

theorem previous_range {b c : ℚ} {l : List ℚ} (hc : -b ≤ c ∧ c ≤ 1) (hl : Values b l) : -b ≤ previous c l ∧ previous c l ≤ 1 := by
  unfold previous
  cases h : l.getLast? with
  | none => exact hc
  | some x => exact hl x (List.mem_of_getLast? h)

/-- In the fade-out the slope is negative. -/
def FadeOk (e : Env) : Prop := e.state = .fadeout → e.delta < 0

theorem InRange.trans_pos {b : ℚ} {canc : Bool} {e : Env} (h : InRange b canc e) : 0 < e.trans := by
  unfold Env.trans
  have := h.rate
  linarith

theorem segment_range {b : ℚ} {canc : Bool} {e : Env} (h : InRange b canc e) (hf : FadeOk e) (size : Nat) :
    Values b (segment e size).1 ∧ InRange b canc (segment e size).2 ∧ FadeOk (segment e size).2 := by
  have htr := h.trans_pos
  obtain ⟨hrate, hb0, hbv, hbc, hstep, hdec, hrel, hstart, hsus, hcur, hdelta⟩ := h
  have hst : -b ≤ e.start ∧ e.start ≤ 1 := ⟨by linarith [hstart.1], hstart.2⟩
  unfold segment
  cases hs : e.state with
  | delay =>
    simp only [hs]
    refine ⟨values_replicate _ hst, ?_, ?_⟩
    · have hcur' : ∀ k : Nat, -b ≤ (if k > 0 then e.start else e.cur) ∧ (if k > 0 then e.start else e.cur) ≤ 1 := by
        intro k; split <;> assumption
      split
      · refine ⟨hrate, hb0, hbv, hbc, hstep, hdec, hrel, hstart, hsus, hcur' _, fun hh => ?_⟩
        rcases hh with hh | hh
        · cases hh
        · exact hdelta (Or.inr hh)
      · refine ⟨hrate, hb0, hbv, hbc, hstep, hdec, hrel, hstart, hsus, hcur' _, fun hh => ?_⟩
        rcases hh with hh | hh
        · exact absurd hh (by simp [hs])
        · exact hdelta (Or.inr hh)
    · intro hh
      split at hh
      · cases hh
      · exact absurd hh (by simp [hs])
  | attack =>
    simp only [hs]
    obtain ⟨h1, h2⟩ := attackLoop_range hstep size e.cur hcur
    refine ⟨h1, ?_, ?_⟩
    · split
      · refine ⟨hrate, hb0, hbv, hbc, hstep, hdec, hrel, hstart, hsus, ⟨by dsimp only; linarith, le_refl _⟩, fun hh => ?_⟩
        rcases hh with hh | hh
        · cases hh
        · exact hdelta (Or.inr hh)
      · rename_i hlt
        refine ⟨hrate, hb0, hbv, hbc, hstep, hdec, hrel, hstart, hsus, ⟨h2, by dsimp only; linarith⟩, fun hh => ?_⟩
        rcases hh with hh | hh
        · exact absurd hh (by simp [hs])
        · exact hdelta (Or.inr hh)
    · intro hh
      split at hh
      · cases hh
      · exact absurd hh (by simp [hs])
  | hold =>
    simp only [hs]
    refine ⟨values_replicate _ hcur, ?_, ?_⟩
    · split
      · refine ⟨hrate, hb0, hbv, hbc, hstep, hdec, hrel, hstart, hsus, hcur, fun hh => ?_⟩
        rcases hh with hh | hh
        · cases hh
        · exact hdelta (Or.inr hh)
      · refine ⟨hrate, hb0, hbv, hbc, hstep, hdec, hrel, hstart, hsus, hcur, fun hh => ?_⟩
        rcases hh with hh | hh
        · exact absurd hh (by simp [hs])
        · exact hdelta (Or.inr hh)
    · intro hh
      split at hh
      · cases hh
      · exact absurd hh (by simp [hs])
  | decay =>
    simp only [hs]
    obtain ⟨h1, h2⟩ := decayLoop_range (bd := e.sustain) hb0 hdec size e.cur hcur
    refine ⟨h1, ?_, ?_⟩
    · split
      · rename_i hle
        generalize (decayLoop e.decayRate e.sustain size e.cur).2 = v at h2 hle
        have hm1 : e.sustain ≤ max e.sustain v := le_max_left _ _
        have hm2 : max e.sustain v ≤ e.sustain + vz := max_le (by unfold vz; linarith) hle
        refine ⟨hrate, hb0, hbv, hbc, hstep, hdec, hrel, hstart, hsus, ⟨by dsimp only; linarith [hsus.1], max_le hsus.2 h2.2⟩, fun _ => ?_⟩
        dsimp only
        constructor
        · have : -(vz / e.trans) ≤ (e.sustain - max e.sustain v) / e.trans := by
            rw [← neg_div]
            exact div_le_div_of_nonneg_right (by linarith) (le_of_lt htr)
          linarith
        · exact div_nonpos_of_nonpos_of_nonneg (by linarith) (le_of_lt htr)
      · refine ⟨hrate, hb0, hbv, hbc, hstep, hdec, hrel, hstart, hsus, h2, fun hh => ?_⟩
        rcases hh with hh | hh
        · exact absurd hh (by simp [hs])
        · exact hdelta (Or.inr hh)
    · intro hh
      split at hh
      · cases hh
      · exact absurd hh (by simp [hs])
  | sustain =>
    simp only [hs]
    have hd := hdelta (Or.inl hs)
    by_cases hfr : e.shouldRelease = false ∧ e.freeRunning = true
    · rw [if_pos hfr]
      refine ⟨by simp [Values], ⟨hrate, hb0, hbv, hbc, hstep, hdec, hrel, hstart, hsus, hcur, fun _ => hd⟩, fun hh => ?_⟩
      exact absurd hh (by simp [hs])
    · rw [if_neg hfr]
      obtain ⟨h1, h2⟩ := sustainLoop_range hsus.1 hd size e.cur hcur
      refine ⟨h1, ⟨hrate, hb0, hbv, hbc, hstep, hdec, hrel, hstart, hsus, h2, fun _ => hd⟩, fun hh => ?_⟩
      exact absurd hh (by simp [hs])
  | release =>
    simp only [hs]
    obtain ⟨h1, h2⟩ := decayLoop_range (bd := thr) hb0 hrel size e.cur hcur
    have hp := previous_range hcur h1
    have ht : (0 : ℚ) ≤ thr := by unfold thr; norm_num
    have hmax : 0 < max thr (previous e.cur (decayLoop e.releaseRate thr size e.cur).1) :=
      lt_of_lt_of_le (by unfold thr; norm_num) (le_max_left _ _)
    refine ⟨h1, ?_, ?_⟩
    · split
      · refine ⟨hrate, hb0, hbv, hbc, hstep, hdec, hrel, hstart, hsus, hp, fun hh => ?_⟩
        rcases hh with hh | hh
        · cases hh
        · dsimp only
          constructor
          · have hle : max thr (previous e.cur (decayLoop e.releaseRate thr size e.cur).1) ≤ 1 := max_le (by unfold thr; norm_num) hp.2
            have : -(1 / e.trans) ≤ -(max thr (previous e.cur (decayLoop e.releaseRate thr size e.cur).1)) / e.trans := by
              rw [← neg_div]
              exact div_le_div_of_nonneg_right (by linarith) (le_of_lt htr)
            linarith [hbc hh]
          · exact div_nonpos_of_nonpos_of_nonneg (by linarith) (le_of_lt htr)
      · refine ⟨hrate, hb0, hbv, hbc, hstep, hdec, hrel, hstart, hsus, h2, fun hh => ?_⟩
        rcases hh with hh | hh
        · exact absurd hh (by simp [hs])
        · exact hdelta (Or.inr hh)
    · intro hh
      split at hh
      · rename_i hc
        rw [if_pos hc]
        exact div_neg_of_neg_of_pos (by linarith) htr
      · exact absurd hh (by simp [hs])
  | fadeout =>
    simp only [hs]
    have hdel := hf hs
    obtain ⟨h1, h2⟩ := fadeLoop_range (le_of_lt hdel) hb0 size e.cur hcur.2
    refine ⟨h1, ?_, ?_⟩
    · split
      · refine ⟨hrate, hb0, hbv, hbc, hstep, hdec, hrel, hstart, hsus, ⟨by dsimp only; linarith, by dsimp only; norm_num⟩, fun hh => ?_⟩
        rcases hh with hh | hh
        · cases hh
        · exact hdelta (Or.inr hh)
      · rename_i hgt
        refine ⟨hrate, hb0, hbv, hbc, hstep, hdec, hrel, hstart, hsus, ⟨by dsimp only; linarith, h2⟩, fun hh => ?_⟩
        rcases hh with hh | hh
        · exact absurd hh (by simp [hs])
        · exact hdelta (Or.inr hh)
    · intro hh
      split at hh
      · cases hh
      · rename_i hc
        rw [if_neg hc]
        exact hdel
  | done =>
    simp only [hs]
    refine ⟨values_replicate _ ⟨by linarith, by norm_num⟩, ?_, ?_⟩
    · refine ⟨hrate, hb0, hbv, hbc, hstep, hdec, hrel, hstart, hsus, ⟨by dsimp only; linarith, by dsimp only; norm_num⟩, fun hh => ?_⟩
      rcases hh with hh | hh
      · exact absurd hh (by simp [hs])
      · exact hdelta (Or.inr hh)
    · intro hh; exact absurd hh (by simp [hs])

theorem prepare_range {b : ℚ} {canc : Bool} {e : Env} (h : InRange b canc e) (hf : FadeOk e) (n : Nat) :
    InRange b canc (prepare e n).1 ∧ FadeOk (prepare e n).1 := by
  obtain ⟨hrate, hb0, hbv, hbc, hstep, hdec, hrel, hstart, hsus, hcur, hdelta⟩ := h
  have h0 : InRange b canc e := ⟨hrate, hb0, hbv, hbc, hstep, hdec, hrel, hstart, hsus, hcur, hdelta⟩
  unfold prepare
  split
  · split
    · exact ⟨h0, hf⟩
    · split
      · split
        · refine ⟨⟨hrate, hb0, hbv, hbc, hstep, hdec, hrel, hstart, hsus, hcur, fun hh => ?_⟩, fun hh => by cases hh⟩
          rcases hh with hh | hh
          · cases hh
          · exact hdelta (Or.inr hh)
        · exact ⟨⟨hrate, hb0, hbv, hbc, hstep, hdec, hrel, hstart, hsus, hcur, hdelta⟩, hf⟩
      · split
        · refine ⟨⟨hrate, hb0, hbv, hbc, hstep, hdec, hrel, hstart, hsus, hcur, fun hh => ?_⟩, fun hh => by cases hh⟩
          rcases hh with hh | hh
          · cases hh
          · exact hdelta (Or.inr hh)
        · exact ⟨h0, hf⟩
  · exact ⟨h0, hf⟩

theorem finish_range {b : ℚ} {canc : Bool} {e : Env} (h : InRange b canc e) (hf : FadeOk e) (n : Nat) :
    InRange b canc (finish e n) ∧ FadeOk (finish e n) := by
  obtain ⟨hrate, hb0, hbv, hbc, hstep, hdec, hrel, hstart, hsus, hcur, hdelta⟩ := h
  unfold finish
  split
  · exact ⟨⟨hrate, hb0, hbv, hbc, hstep, hdec, hrel, hstart, hsus, hcur, hdelta⟩, hf⟩
  · exact ⟨⟨hrate, hb0, hbv, hbc, hstep, hdec, hrel, hstart, hsus, hcur, hdelta⟩, hf⟩

theorem block_range {b : ℚ} {canc : Bool} (e : Env) (n : Nat) (h : InRange b canc e ∧ FadeOk e) :
    Values b (block e n).1 ∧ (InRange b canc (block e n).2 ∧ FadeOk (block e n).2) := by
  refine block_induct (P := fun e => InRange b canc e ∧ FadeOk e) (Q := Values b) (by simp [Values]) values_append ?_ e n h
  intro e n _ ⟨h1, h2⟩
  obtain ⟨p1, p2⟩ := prepare_range h1 h2 n
  obtain ⟨s0, s1, s2⟩ := segment_range p1 p2 (prepare e n).2
  exact ⟨s0, finish_range s1 s2 _⟩

theorem clamp01 (x : ℚ) : 0 ≤ max (min x 1) 0 ∧ max (min x 1) 0 ≤ 1 :=
  ⟨le_max_right _ _, max_le (min_le_right _ _) (by norm_num)⟩

theorem update_range {b : ℚ} {canc : Bool} {e : Env} (h : InRange b canc e) (hf : FadeOk e) (d : Int) (p : Params) (hp : p.Ok) :
    InRange b canc (update e d p) ∧ FadeOk (update e d p) := by
  obtain ⟨hrate, hb0, hbv, hbc, hstep, hdec, hrel, hstart, hsus, hcur, hdelta⟩ := h
  exact ⟨⟨hrate, hb0, hbv, hbc, hp.step, hp.decay, hp.rel, clamp01 _, clamp01 _, hcur, hdelta⟩, hf⟩

theorem dynamicBlock_range {b : ℚ} {canc : Bool} (ps : Nat → Params) (hps : ∀ i, (ps i).Ok) (e : Env) (k n : Nat)
    (h : InRange b canc e ∧ FadeOk e) :
    Values b (dynamicBlock e ps k n).1 ∧ (InRange b canc (dynamicBlock e ps k n).2 ∧ FadeOk (dynamicBlock e ps k n).2) := by
  fun_induction dynamicBlock with
  | case1 => exact ⟨by simp [Values], h⟩
  | case2 e k n hn chunk bl r ih =>
    obtain ⟨h1, h2⟩ := block_range (update e k (ps k)) chunk (update_range h.1 h.2 k _ (hps k))
    obtain ⟨h3, h4⟩ := ih h2
    exact ⟨values_append _ _ h1 h3, h4⟩

/-- The calls made on an envelope. -/
inductive Op where
  | start (sampleRate : ℚ) (delay : Int) (p : Params) (oneShotOsc : Bool)
  | release (delay : Int)
  | cancel
  | releaseTime (rate : ℚ)
  | get (n : Nat)
  | getDynamic (ps : Nat → Params) (n : Nat)

/-- Effect and output of a call. -/
def Op.run (e : Env) : Op → List ℚ × Env
  | .start sr d p os => ([], reset e sr d p os)
  | .release d => ([], startRelease e d)
  | .cancel => ([], cancelRelease e)
  | .releaseTime r => ([], { e with releaseRate := r })
  | .get n => block e n
  | .getDynamic ps n => dynamicBlock e ps 0 n

/-- A history of calls. -/
def runAll (e : Env) : List Op → List ℚ × Env
  | [] => ([], e)
  | op :: ops => ((op.run e).1 ++ (runAll (op.run e).2 ops).1, (runAll (op.run e).2 ops).2)

/-- Calls with reasonable arguments, at sample rate `sr`. -/
def Op.Ok (sr : ℚ) : Op → Prop
  | .start s _ p _ => s = sr ∧ p.Ok
  | .releaseTime r => 0 ≤ r ∧ r ≤ 1
  | .getDynamic ps _ => ∀ i, (ps i).Ok
  | _ => True

theorem op_range {b : ℚ} {canc : Bool} {sr : ℚ} (e : Env) (hsr : e.sampleRate = sr) (op : Op) (hop : op.Ok sr) (hc : op = .cancel → canc = true)
    (h : InRange b canc e ∧ FadeOk e) :
    Values b (op.run e).1 ∧ InRange b canc (op.run e).2 ∧ FadeOk (op.run e).2 := by
  obtain ⟨h0, hf⟩ := h
  cases op with
  | start s d p os =>
    obtain ⟨rfl, hp⟩ := hop
    refine ⟨by simp [Values, Op.run], ?_, fun hh => by cases hh⟩
    have hbv := h0.bv
    have hbc := h0.bc
    unfold Env.trans at hbv hbc
    rw [hsr] at hbv hbc
    refine ⟨by rw [← hsr]; exact h0.rate, h0.b0, hbv, hbc, hp.step, hp.decay, hp.rel, clamp01 _, clamp01 _, ?_, fun hh => ?_⟩
    swap
    · rcases hh with hh | hh
      · cases hh
      · exact h0.delta (Or.inr hh)
    exact ⟨by have := (clamp01 p.start).1; have := h0.b0; show -b ≤ max (min p.start 1) 0; linarith, (clamp01 p.start).2⟩
  | release d =>
    obtain ⟨hrate, hb0, hbv, hbc, hstep, hdec, hrel, hstart, hsus, hcur, hdelta⟩ := h0
    exact ⟨by simp [Values, Op.run], ⟨hrate, hb0, hbv, hbc, hstep, hdec, hrel, hstart, hsus, hcur, hdelta⟩, hf⟩
  | cancel =>
    obtain ⟨hrate, hb0, hbv, hbc, hstep, hdec, hrel, hstart, hsus, hcur, hdelta⟩ := h0
    exact ⟨by simp [Values, Op.run], ⟨hrate, hb0, hbv, hbc, hstep, hdec, hrel, hstart, hsus, hcur, fun _ => hdelta (Or.inr (hc rfl))⟩,
      fun hh => by cases hh⟩
  | releaseTime r =>
    obtain ⟨hrate, hb0, hbv, hbc, hstep, hdec, hrel, hstart, hsus, hcur, hdelta⟩ := h0
    exact ⟨by simp [Values, Op.run], ⟨hrate, hb0, hbv, hbc, hstep, hdec, hop, hstart, hsus, hcur, hdelta⟩, hf⟩
  | get n => exact block_range e n ⟨h0, hf⟩
  | getDynamic ps n => exact dynamicBlock_range ps hop e 0 n ⟨h0, hf⟩

end Verif.Adsr
