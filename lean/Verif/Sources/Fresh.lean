import Verif.Sources.Model

/-! # Envelopes that differ in what an earlier note left

`transitionDelta` is the only member of an ADSR envelope that a reset leaves (ADSREnvelope.cpp:41-56). -/
namespace Verif.Sources

open Verif.Adsr (Env St)

/-- Two envelopes that are the same, up to a slope that is not used before it is set again. -/
def Alike (e e' : Env) : Prop := e' = e ∨ ((e.state ≠ .sustain ∧ e.state ≠ .fadeout) ∧ ∃ x, e' = { e with delta := x })

theorem prepare_alike {e : Env} (h : e.state ≠ .sustain ∧ e.state ≠ .fadeout) (x : ℚ) (n : Nat) :
    Adsr.prepare { e with delta := x } n = ({ (Adsr.prepare e n).1 with delta := x }, (Adsr.prepare e n).2) ∧
      ((Adsr.prepare e n).1.state ≠ .sustain ∧ (Adsr.prepare e n).1.state ≠ .fadeout) := by
  unfold Adsr.prepare
  dsimp only
  split_ifs <;> first | exact ⟨rfl, h⟩ | exact ⟨rfl, by simp, by simp⟩

theorem segment_alike {e : Env} (h : e.state ≠ .sustain ∧ e.state ≠ .fadeout) (x : ℚ) (n : Nat) :
    (Adsr.segment { e with delta := x } n).1 = (Adsr.segment e n).1 ∧
      Alike (Adsr.segment e n).2 (Adsr.segment { e with delta := x } n).2 := by
  unfold Adsr.segment
  cases hs : e.state with
  | sustain => exact absurd hs h.1
  | fadeout => exact absurd hs h.2
  | delay =>
    simp only [hs]
    refine ⟨trivial, .inr ?_⟩
    by_cases hp : (Adsr.delayLoop n e.delay).2 ≤ 0
    · rw [if_pos hp, if_pos hp]
      exact ⟨⟨by simp, by simp⟩, x, rfl⟩
    · rw [if_neg hp, if_neg hp]
      exact ⟨⟨by simp [hs], by simp [hs]⟩, x, by simp [hs]⟩
  | attack =>
    simp only [hs]
    refine ⟨trivial, .inr ?_⟩
    split_ifs
    · exact ⟨⟨by simp, by simp⟩, x, rfl⟩
    · exact ⟨⟨by simp [hs], by simp [hs]⟩, x, by simp [hs]⟩
  | hold =>
    simp only [hs]
    refine ⟨trivial, .inr ?_⟩
    split_ifs
    · exact ⟨⟨by simp, by simp⟩, x, rfl⟩
    · exact ⟨⟨by simp [hs], by simp [hs]⟩, x, by simp [hs]⟩
  | decay =>
    simp only [hs]
    refine ⟨trivial, ?_⟩
    split_ifs
    · exact .inl rfl
    · exact .inr ⟨⟨by simp [hs], by simp [hs]⟩, x, by simp [hs]⟩
  | release =>
    simp only [hs]
    refine ⟨trivial, ?_⟩
    split_ifs
    · exact .inl rfl
    · exact .inr ⟨⟨by simp [hs], by simp [hs]⟩, x, by simp [hs]⟩
  | done =>
    simp only [hs]
    exact ⟨trivial, .inr ⟨⟨by simp [hs], by simp [hs]⟩, x, by simp [hs]⟩⟩

theorem finish_alike {e e' : Env} (h : Alike e e') (n : Nat) : Alike (Adsr.finish e n) (Adsr.finish e' n) := by
  rcases h with rfl | ⟨hs, x, rfl⟩
  · exact .inl rfl
  · unfold Adsr.finish
    dsimp only
    split_ifs
    · exact .inr ⟨hs, x, rfl⟩
    · exact .inr ⟨hs, x, rfl⟩

theorem turn_alike {e e' : Env} (h : Alike e e') (n : Nat) :
    (Adsr.turn e' n).1 = (Adsr.turn e n).1 ∧ Alike (Adsr.turn e n).2 (Adsr.turn e' n).2 := by
  rcases h with rfl | ⟨hs, x, rfl⟩
  · exact ⟨rfl, .inl rfl⟩
  · unfold Adsr.turn
    obtain ⟨hp, hc⟩ := prepare_alike hs x n
    simp only [hp]
    obtain ⟨h1, h2⟩ := segment_alike hc x (Adsr.prepare e n).2
    refine ⟨h1, ?_⟩
    rw [h1]
    exact finish_alike h2 _

theorem block_alike (e : Env) (n : Nat) : ∀ e', Alike e e' →
    (Adsr.block e' n).1 = (Adsr.block e n).1 ∧ Alike (Adsr.block e n).2 (Adsr.block e' n).2 := by
  fun_induction Adsr.block e n with
  | case1 e => intro e' h; rw [Adsr.block]; exact ⟨rfl, h⟩
  | case2 e n hn t r ih =>
    intro e' h
    obtain ⟨h1, h2⟩ := turn_alike h n
    obtain ⟨h3, h4⟩ := ih _ h2
    rw [Adsr.block, dif_neg hn]
    dsimp only
    rw [h1]
    exact ⟨by rw [h3], h4⟩

theorem update_alike {e e' : Env} (h : Alike e e') (d : Int) (p : Adsr.Params) : Alike (Adsr.update e d p) (Adsr.update e' d p) := by
  rcases h with rfl | ⟨hs, x, rfl⟩
  · exact .inl rfl
  · exact .inr ⟨hs, x, rfl⟩

theorem dynamicBlock_alike (ps : Nat → Adsr.Params) (m : Nat) : ∀ (n done : Nat), n ≤ m → ∀ e e', Alike e e' →
    (Adsr.dynamicBlock e' ps done n).1 = (Adsr.dynamicBlock e ps done n).1 ∧
      Alike (Adsr.dynamicBlock e ps done n).2 (Adsr.dynamicBlock e' ps done n).2 := by
  induction m with
  | zero =>
    intro n done hn e e' h
    obtain rfl : n = 0 := by omega
    rw [Adsr.dynamicBlock, Adsr.dynamicBlock]
    exact ⟨rfl, h⟩
  | succ m ih =>
    intro n done hn e e' h
    rw [Adsr.dynamicBlock, Adsr.dynamicBlock.eq_1 e]
    by_cases h0 : n = 0
    · rw [dif_pos h0, dif_pos h0]; exact ⟨rfl, h⟩
    · rw [dif_neg h0, dif_neg h0]
      dsimp only
      obtain ⟨h1, h2⟩ := block_alike _ (min 16 n) _ (update_alike h done (ps done))
      obtain ⟨h3, h4⟩ := ih (n - min 16 n) (done + min 16 n) (by omega) _ _ h2
      exact ⟨by rw [h1, h3], h4⟩

/-- Reset: a used envelope is like a new one. -/
theorem reset_alike (e e' : Env) (sr : ℚ) (d : Int) (p : Adsr.Params) (os : Bool) :
    Alike (Adsr.reset e sr d p os) (Adsr.reset e' sr d p os) :=
  .inr ⟨⟨by simp [Adsr.reset, Adsr.update], by simp [Adsr.reset, Adsr.update]⟩, e'.delta, rfl⟩

/-- No call but a cancelled release tells them apart. -/
theorem op_alike {e e' : Env} (h : Alike e e') (op : Adsr.Op) (hc : op ≠ .cancel) :
    (op.run e').1 = (op.run e).1 ∧ Alike (op.run e).2 (op.run e').2 := by
  cases op with
  | start sr d p os => exact ⟨rfl, reset_alike ..⟩
  | release d =>
    refine ⟨rfl, ?_⟩
    rcases h with rfl | ⟨hs, x, rfl⟩
    · exact .inl rfl
    · exact .inr ⟨hs, x, rfl⟩
  | cancel => exact absurd rfl hc
  | releaseTime r =>
    refine ⟨rfl, ?_⟩
    rcases h with rfl | ⟨hs, x, rfl⟩
    · exact .inl rfl
    · exact .inr ⟨hs, x, rfl⟩
  | get n => exact block_alike e n e' h
  | getDynamic ps n => exact dynamicBlock_alike ps n n 0 le_rfl e e' h

theorem runAll_alike (ops : List Adsr.Op) (hc : Adsr.Op.cancel ∉ ops) : ∀ {e e' : Env}, Alike e e' →
    (Adsr.runAll e' ops).1 = (Adsr.runAll e ops).1 := by
  induction ops with
  | nil => intro e e' _; rfl
  | cons op ops ih =>
    intro e e' h
    rw [List.mem_cons, not_or] at hc
    obtain ⟨h1, h2⟩ := op_alike h op (fun e => hc.1 e.symm)
    simp only [Adsr.runAll]
    rw [h1, ih hc.2 h2]

end Verif.Sources
