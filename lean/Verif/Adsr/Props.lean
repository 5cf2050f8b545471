import Verif.Adsr.Ends

/-! C35: envelopes finish after finitely many frames and stay in range. -/
namespace Verif.Adsr

/-! ### Histories -/

theorem turn_delayOk {e : Env} (h : DelayOk e) (n : Nat) : DelayOk (turn e n).2 ∧ (turn e n).2.sampleRate = e.sampleRate := by
  have hp : DelayOk (prepare e n).1 ∧ (prepare e n).1.sampleRate = e.sampleRate := by
    unfold prepare
    split
    · split
      · exact ⟨h, rfl⟩
      · split
        · rename_i h2
          split
          · exact ⟨fun hh => by dsimp only at hh; omega, rfl⟩
          · exact ⟨fun hh => by dsimp only at hh; omega, rfl⟩
        · split
          · rename_i h3
            exact ⟨fun hh => by have := h3.2.2; dsimp only at hh; omega, rfl⟩
          · exact ⟨h, rfl⟩
    · exact ⟨h, rfl⟩
  have hf : ∀ (s : Env) c, (DelayOk s ∧ s.sampleRate = e.sampleRate) → DelayOk (finish s c) ∧ (finish s c).sampleRate = e.sampleRate := by
    intro s c hs; unfold finish; split <;> exact hs
  unfold turn
  apply hf
  generalize (prepare e n).1 = p at *
  generalize (prepare e n).2 = size at *
  obtain ⟨hp, hr⟩ := hp
  unfold segment
  cases hs : p.state with
  | delay =>
    simp only
    split
    · refine ⟨fun hh => ?_, hr⟩
      dsimp only at hh; omega
    · exact ⟨fun _ => by simp, hr⟩
  | attack =>
    have hd0 : ¬p.delay > 0 := fun hh => absurd (hp hh) (by simp [hs])
    simp only; split <;> exact ⟨fun hh => absurd hh hd0, hr⟩
  | hold =>
    have hd0 : ¬p.delay > 0 := fun hh => absurd (hp hh) (by simp [hs])
    simp only; split <;> exact ⟨fun hh => absurd hh hd0, hr⟩
  | decay =>
    have hd0 : ¬p.delay > 0 := fun hh => absurd (hp hh) (by simp [hs])
    simp only; split <;> exact ⟨fun hh => absurd hh hd0, hr⟩
  | sustain =>
    have hd0 : ¬p.delay > 0 := fun hh => absurd (hp hh) (by simp [hs])
    simp only; split <;> exact ⟨fun hh => absurd hh hd0, hr⟩
  | release =>
    have hd0 : ¬p.delay > 0 := fun hh => absurd (hp hh) (by simp [hs])
    simp only; split <;> exact ⟨fun hh => absurd hh hd0, hr⟩
  | fadeout =>
    have hd0 : ¬p.delay > 0 := fun hh => absurd (hp hh) (by simp [hs])
    simp only; split <;> exact ⟨fun hh => absurd hh hd0, hr⟩
  | done =>
    have hd0 : ¬p.delay > 0 := fun hh => absurd (hp hh) (by simp [hs])
    exact ⟨fun hh => absurd hh hd0, hr⟩

theorem turn_rate (e : Env) (n : Nat) : (turn e n).2.sampleRate = e.sampleRate := by
  have hp : (prepare e n).1.sampleRate = e.sampleRate := by
    unfold prepare
    split
    · split
      · rfl
      · split <;> split <;> rfl
    · rfl
  have hf : ∀ (s : Env) c, (finish s c).sampleRate = s.sampleRate := by
    intro s c; unfold finish; split <;> rfl
  unfold turn
  dsimp only
  rw [hf, ← hp]
  unfold segment
  split <;> dsimp only <;> split <;> rfl

theorem block_rate (e : Env) (n : Nat) (sr : ℚ) (h : e.sampleRate = sr) : (block e n).2.sampleRate = sr :=
  (block_induct (P := fun e => e.sampleRate = sr) (Q := fun _ => True) trivial (fun _ _ _ _ => trivial)
    (fun e n _ h => ⟨trivial, (turn_rate e n).trans h⟩) e n h).2

theorem block_delayOk (e : Env) (n : Nat) (h : DelayOk e) : DelayOk (block e n).2 :=
  (block_induct (P := DelayOk) (Q := fun _ => True) trivial (fun _ _ _ _ => trivial)
    (fun _ n _ h => ⟨trivial, (turn_delayOk h n).1⟩) e n h).2

theorem update_delayOk {e : Env} (h : DelayOk e) (d : Int) (p : Params) : DelayOk (update e d p) := by
  intro hh
  unfold update at hh ⊢
  dsimp only at hh ⊢
  split at hh
  · assumption
  · exact h hh

theorem dynamic_delayOk (ps : Nat → Params) (e : Env) (k n : Nat) (h : DelayOk e) : DelayOk (dynamicBlock e ps k n).2 := by
  fun_induction dynamicBlock with
  | case1 => exact h
  | case2 e k n hn chunk bl r ih => exact ih (block_delayOk _ chunk (update_delayOk h k (ps k)))

theorem dynamic_rate (ps : Nat → Params) (e : Env) (k n : Nat) (sr : ℚ) (h : e.sampleRate = sr) : (dynamicBlock e ps k n).2.sampleRate = sr := by
  fun_induction dynamicBlock with
  | case1 => exact h
  | case2 e k n hn chunk bl r ih => exact ih (block_rate (update e k (ps k)) chunk sr h)

/-- What holds after any history. -/
structure Hist (sr b : ℚ) (canc : Bool) (e : Env) : Prop where
  range : InRange b canc e
  fade : FadeOk e
  rate : e.sampleRate = sr
  delay : canc = false → DelayOk e

theorem op_hist {sr b : ℚ} {canc : Bool} {e : Env} (h : Hist sr b canc e) (op : Op) (hop : op.Ok sr) (hc : op = .cancel → canc = true) :
    Values b (op.run e).1 ∧ Hist sr b canc (op.run e).2 := by
  obtain ⟨h1, h2, h3⟩ := op_range e h.rate op hop hc ⟨h.range, h.fade⟩
  refine ⟨h1, h2, h3, ?_, fun hcf => ?_⟩
  · cases op with
    | start s d p os => exact hop.1
    | release d => exact h.rate
    | cancel => exact h.rate
    | releaseTime r => exact h.rate
    | get n => exact block_rate e n sr h.rate
    | getDynamic ps n => exact dynamic_rate ps e 0 n sr h.rate
  · have hd := h.delay hcf
    cases op with
    | start s d p os => exact fun _ => rfl
    | release d => exact hd
    | cancel => rw [hc rfl] at hcf; cases hcf
    | releaseTime r => exact hd
    | get n => exact block_delayOk e n hd
    | getDynamic ps n => exact dynamic_delayOk ps e 0 n hd

theorem runAll_hist {sr b : ℚ} {canc : Bool} (ops : List Op) (e : Env) (h : Hist sr b canc e) (hops : ∀ op ∈ ops, op.Ok sr ∧ (op = .cancel → canc = true)) :
    Values b (runAll e ops).1 ∧ Hist sr b canc (runAll e ops).2 := by
  induction ops generalizing e with
  | nil => exact ⟨by simp [Values, runAll], h⟩
  | cons op ops ih =>
    obtain ⟨h1, h2⟩ := hops op (List.mem_cons_self ..)
    obtain ⟨h3, h4⟩ := op_hist h op h1 h2
    obtain ⟨h5, h6⟩ := ih _ h4 (fun o ho => hops o (List.mem_cons_of_mem _ ho))
    exact ⟨values_append _ _ h3 h5, h6⟩

/-- A fresh envelope, as constructed by a voice. -/
def fresh (sr : ℚ) : Env := { sampleRate := sr }

/-- The envelope of a voice that started to play and was then used by the calls `ops`. -/
def history (sr : ℚ) (d : Int) (p : Params) (os : Bool) (ops : List Op) : List ℚ × Env := runAll (fresh sr) (.start sr d p os :: ops)

theorem started {sr b : ℚ} {canc : Bool} (hsr : 0 < sr) (hb : vz * 20 / sr ≤ b) (hc : canc = true → 20 / sr ≤ b) (d : Int) (p : Params) (hp : p.Ok) (os : Bool) :
    Hist sr b canc (reset (fresh sr) sr d p os) := by
  have hb0 : 0 ≤ b := le_trans (by unfold vz; positivity) hb
  refine ⟨⟨hsr, hb0, ?_, ?_, hp.step, hp.decay, hp.rel, clamp01 _, clamp01 _, ?_, fun hh => ?_⟩, fun hh => absurd hh (by simp [reset, update]), rfl, fun _ _ => rfl⟩
  · show vz / (sr * (1 / 20)) ≤ b
    rw [show vz / (sr * (1 / 20)) = vz * 20 / sr by field_simp]
    exact hb
  · intro hh
    show 1 / (sr * (1 / 20)) ≤ b
    rw [show 1 / (sr * (1 / 20)) = 20 / sr by field_simp]
    exact hc hh
  · exact ⟨by have := (clamp01 p.start).1; show -b ≤ max (min p.start 1) 0; linarith, (clamp01 p.start).2⟩
  · show -b ≤ (0 : ℚ) ∧ (0 : ℚ) ≤ 0
    exact ⟨by linarith, le_refl _⟩

/-! ### The level -/

/-- C35 (partial): in every history of an envelope whose release is never cancelled, every level is at most 1 and at least
0 less `0.02 / sampleRate` (4.2e-7 at 48 kHz). Missing: exactly 0, see `level_in_range_violated`. -/
theorem level_in_range_partial (sr : ℚ) (hsr : 0 < sr) (d : Int) (p : Params) (hp : p.Ok) (os : Bool) (ops : List Op)
    (hops : ∀ op ∈ ops, op.Ok sr ∧ op ≠ .cancel) : ∀ y ∈ (history sr d p os ops).1, -(1 / (50 * sr)) ≤ y ∧ y ≤ 1 := by
  have hs := started (canc := false) hsr (le_refl (vz * 20 / sr)) (fun hh => by cases hh) d p hp os
  obtain ⟨h, _⟩ := runAll_hist ops _ hs (fun op ho => ⟨(hops op ho).1, fun hh => absurd hh (hops op ho).2⟩)
  intro y hy
  have hv : vz * 20 / sr = 1 / (50 * sr) := by unfold vz; field_simp; norm_num
  rw [← hv]
  exact h y hy

/-- C35 (partial): when releases are cancelled (a note caught again by the sustain pedal), the levels are at most 1 and at least
0 less `20 / sampleRate` (4.2e-4 at 48 kHz). -/
theorem level_with_cancel_partial (sr : ℚ) (hsr : 0 < sr) (d : Int) (p : Params) (hp : p.Ok) (os : Bool) (ops : List Op)
    (hops : ∀ op ∈ ops, op.Ok sr) : ∀ y ∈ (history sr d p os ops).1, -(20 / sr) ≤ y ∧ y ≤ 1 := by
  have hle : vz * 20 / sr ≤ 20 / sr := by
    apply div_le_div_of_nonneg_right _ (le_of_lt hsr)
    unfold vz; norm_num
  have hs := started (canc := true) hsr hle (fun _ => le_refl _) d p hp os
  exact (runAll_hist ops _ hs (fun op ho => ⟨hops op ho, fun _ => rfl⟩)).1

/-! Evaluation of examples by the kernel, with fuel for the loops. -/

/-- `block` with fuel. -/
def blockF : Nat → Env → Nat → Option (List ℚ × Env)
  | 0, _, _ => none
  | fuel + 1, e, n =>
    if n = 0 then some ([], e)
    else (blockF fuel (turn e n).2 (n - (turn e n).1.length)).map fun r => ((turn e n).1 ++ r.1, r.2)

theorem blockF_eq (fuel : Nat) (e : Env) (n : Nat) (r : List ℚ × Env) (h : blockF fuel e n = some r) : block e n = r := by
  induction fuel generalizing e n r with
  | zero => cases h
  | succ fuel ih =>
    unfold blockF at h
    rw [block]
    by_cases hn : n = 0
    · rw [if_pos hn] at h; rw [dif_pos hn]; exact Option.some.inj h
    · rw [if_neg hn] at h; rw [dif_neg hn]
      cases hb : blockF fuel (turn e n).2 (n - (turn e n).1.length) with
      | none => rw [hb] at h; cases h
      | some q =>
        rw [hb] at h
        simp only [ih _ _ _ hb]
        exact Option.some.inj h

/-- `dynamicBlock` with fuel. -/
def dynamicF : Nat → Env → (Nat → Params) → Nat → Nat → Option (List ℚ × Env)
  | 0, _, _, _, _ => none
  | fuel + 1, e, ps, k, n =>
    if n = 0 then some ([], e)
    else (blockF 50 (update e k (ps k)) (min 16 n)).bind fun b =>
      (dynamicF fuel b.2 ps (k + min 16 n) (n - min 16 n)).map fun r => (b.1 ++ r.1, r.2)

theorem dynamicF_eq (fuel : Nat) (e : Env) (ps : Nat → Params) (k n : Nat) (r : List ℚ × Env) (h : dynamicF fuel e ps k n = some r) :
    dynamicBlock e ps k n = r := by
  induction fuel generalizing e k n r with
  | zero => cases h
  | succ fuel ih =>
    unfold dynamicF at h
    rw [dynamicBlock]
    by_cases hn : n = 0
    · rw [if_pos hn] at h; rw [dif_pos hn]; exact Option.some.inj h
    · rw [if_neg hn] at h; rw [dif_neg hn]
      cases hb : blockF 50 (update e k (ps k)) (min 16 n) with
      | none => rw [hb] at h; cases h
      | some b =>
        rw [hb, Option.bind_some] at h
        cases hd : dynamicF fuel b.2 ps (k + min 16 n) (n - min 16 n) with
        | none => rw [hd] at h; cases h
        | some q =>
          rw [hd] at h
          simp only [blockF_eq _ _ _ _ hb, ih _ _ _ _ hd]
          exact Option.some.inj h

/-- `Op.run` with fuel. -/
def Op.runF (e : Env) : Op → Option (List ℚ × Env)
  | .get n => blockF 50 e n
  | .getDynamic ps n => dynamicF 200 e ps 0 n
  | op => some (op.run e)

theorem Op.runF_eq (e : Env) (op : Op) (r : List ℚ × Env) (h : op.runF e = some r) : op.run e = r := by
  cases op with
  | get n => exact blockF_eq _ _ _ _ h
  | getDynamic ps n => exact dynamicF_eq _ _ _ _ _ _ h
  | _ => exact Option.some.inj h

/-- `runAll` with fuel. -/
def runAllF (e : Env) : List Op → Option (List ℚ × Env)
  | [] => some ([], e)
  | op :: ops => (op.runF e).bind fun r => (runAllF r.2 ops).map fun q => (r.1 ++ q.1, q.2)

theorem runAllF_eq (ops : List Op) (e : Env) (r : List ℚ × Env) (h : runAllF e ops = some r) : runAll e ops = r := by
  induction ops generalizing e r with
  | nil => exact Option.some.inj h
  | cons op ops ih =>
    unfold runAllF at h
    unfold runAll
    cases ho : op.runF e with
    | none => rw [ho] at h; cases h
    | some q =>
      rw [ho, Option.bind_some] at h
      cases hq : runAllF q.2 ops with
      | none => rw [hq] at h; cases h
      | some z =>
        rw [hq] at h
        simp only [Op.runF_eq _ _ _ ho, ih _ _ hq]
        exact Option.some.inj h

/-- Evaluation of an observation of a history. -/
theorem observe {α : Type} (f : List ℚ × Env → α) (a : α) (e : Env) (ops : List Op) (h : (runAllF e ops).map f = some a) :
    f (runAll e ops) = a := by
  cases hr : runAllF e ops with
  | none => rw [hr] at h; cases h
  | some r => rw [hr] at h; rw [runAllF_eq _ _ _ hr]; exact Option.some.inj h

/-- An ordinary set of parameters. -/
def organ : Params := { delay := 3, attackStep := 1 / 4, decayRate := 1 / 2, releaseRate := 1 / 4, hold := 2, sustain := 1 / 2, start := 0 }

theorem organ_ok : organ.Ok := ⟨by norm_num [organ], by norm_num [organ], by norm_num [organ]⟩

/-- A percussive set of parameters. -/
def drum : Params := { delay := 0, attackStep := 1, decayRate := 1 / 2, releaseRate := 1 / 4, hold := 0, sustain := 0, start := 0 }

theorem drum_ok : drum.Ok := ⟨by norm_num [drum], by norm_num [drum], by norm_num [drum]⟩

example : (history 100 0 organ false [.get 20, .release 2, .get 8]).1 =
    [0, 0, 0, 1/4, 1/2, 3/4, 1, 1, 1/2, 1/2, 1/2, 1/2, 1/2, 1/2, 1/2, 1/2, 1/2, 1/2, 1/2, 1/2,
     1/2, 1/2, 1/8, 1/32, 1/128, 1/512, 1/2048, 1/8192] :=
  observe (fun r => r.1) _ _ _ (by decide +kernel)

/-- C35 fails for the lower bound of the level: with a pending note-off a decayed envelope goes below 0 (at 11025 Hz, where
the transition time is not a whole number of frames). -/
theorem level_in_range_violated : ∃ (ops : List Op) (y : ℚ), (∀ op ∈ ops, op.Ok 11025 ∧ op ≠ .cancel) ∧ y < 0 ∧
    y ∈ (history 11025 0 drum false ops).1 := by
  have h : (history 11025 0 drum false [.get 10, .release 600, .get 600]).1.any (fun y => decide (y < 0)) = true :=
    observe (fun r => r.1.any (fun y => decide (y < 0))) _ _ _ (by decide +kernel)
  obtain ⟨y, hy, h0⟩ := List.any_eq_true.mp h
  exact ⟨_, y, by simp [Op.Ok], of_decide_eq_true h0, hy⟩

/-! ### The end -/

/-- Frames asked for by a call. -/
def Op.frames : Op → Nat
  | .get n => n
  | .getDynamic _ n => n
  | _ => 0

/-- Total of the frames asked for. -/
def total (ops : List Op) : Nat := (ops.map Op.frames).sum

/-- Calls that only ask for frames; release times are bounded. -/
def Plays (ρ : ℚ) : Op → Prop
  | .get _ => True
  | .getDynamic ps _ => ∀ i, (ps i).Ok ∧ (ps i).releaseRate ≤ ρ
  | _ => False

/-- Calls that ask for frames of an envelope without dynamic parameters. -/
def Static : Op → Prop
  | .get _ => True
  | _ => False

theorem over_op {ρ : ℚ} {e : Env} (h : Over e) (op : Op) (hop : Plays ρ op) : Over (op.run e).2 ∧ ∀ y ∈ (op.run e).1, y = 0 := by
  cases op with
  | get n => exact ⟨over_block h n, over_zero h n⟩
  | getDynamic ps n => exact over_dynamic ps e 0 n h
  | _ => exact absurd hop id

theorem over_runAll {ρ : ℚ} (ops : List Op) (e : Env) (h : Over e) (hops : ∀ op ∈ ops, Plays ρ op) :
    Over (runAll e ops).2 ∧ ∀ y ∈ (runAll e ops).1, y = 0 := by
  induction ops generalizing e with
  | nil => exact ⟨h, by simp [runAll]⟩
  | cons op ops ih =>
    obtain ⟨h1, h2⟩ := over_op h op (hops op (List.mem_cons_self ..))
    obtain ⟨h3, h4⟩ := ih _ h1 (fun o ho => hops o (List.mem_cons_of_mem _ ho))
    refine ⟨h3, fun y hy => ?_⟩
    rcases List.mem_append.mp hy with hy | hy
    · exact h2 y hy
    · exact h4 y hy

theorem ends_runAll {ρ : ℚ} {K N : Nat} {b : ℚ} {canc : Bool} (ops : List Op) (e : Env) (m : Nat) (h : Ends ρ K N b canc e m)
    (hops : ∀ op ∈ ops, Plays ρ op) (hd : e.state ≠ .delay ∨ ∀ op ∈ ops, Static op) :
    (total ops ≤ m ∧ Ends ρ K N b canc (runAll e ops).2 (m - total ops)) ∨ Over (runAll e ops).2 := by
  induction ops generalizing e m with
  | nil => exact Or.inl ⟨Nat.zero_le _, h⟩
  | cons op ops ih =>
    have hop := hops op (List.mem_cons_self ..)
    have hrest : ∀ o ∈ ops, Plays ρ o := fun o ho => hops o (List.mem_cons_of_mem _ ho)
    have key : ((op.frames ≤ m ∧ Ends ρ K N b canc (op.run e).2 (m - op.frames)) ∨ Over (op.run e).2) ∧
        ((op.run e).2.state ≠ .delay ∨ ∀ o ∈ ops, Static o) := by
      cases op with
      | get n =>
        refine ⟨block_ends e m n h, ?_⟩
        rcases hd with hd | hd
        · exact Or.inl (block_nodelay e n hd)
        · exact Or.inr (fun o ho => hd o (List.mem_cons_of_mem _ ho))
      | getDynamic ps n =>
        rcases hd with hd | hd
        · exact ⟨dynamic_ends ps hop e 0 m n h hd, Or.inl (dynamic_nodelay ps e 0 n hd)⟩
        · exact absurd (hd _ (List.mem_cons_self ..)) id
      | _ => exact absurd hop id
    have ht : total (op :: ops) = op.frames + total ops := by simp [total]
    obtain ⟨h1 | h1, h2⟩ := key
    · rcases ih _ _ h1.2 hrest h2 with ⟨h3, h4⟩ | h3
      · left
        rw [ht]
        rw [show m - op.frames - total ops = m - (op.frames + total ops) by omega] at h4
        exact ⟨by omega, h4⟩
      · exact Or.inr h3
    · exact Or.inr (over_runAll ops _ h1 hrest).1

theorem exists_consts {ρ : ℚ} (hρ : 0 ≤ ρ ∧ ρ < 1) (t : ℚ) (ht : 0 < t) : ∃ K : Nat, ρ ^ K ≤ t := by
  obtain ⟨K, hK⟩ := exists_pow_lt_of_lt_one ht hρ.2
  exact ⟨K, le_of_lt hK⟩

theorem exists_fade {e : Env} (hf : FadeOk e) : ∃ M : Nat, ∀ m, M ≤ m → Fade e m := by
  by_cases hs : e.state = .fadeout
  · have hd := hf hs
    obtain ⟨M, hM⟩ := exists_nat_ge (e.cur / -e.delta)
    refine ⟨M, fun m hm _ => ?_⟩
    have h1 : (M : ℚ) ≤ m := by exact_mod_cast hm
    have h2 : e.cur / -e.delta ≤ m := le_trans hM h1
    rw [div_le_iff₀ (by linarith)] at h2
    linarith
  · exact ⟨0, fun m _ hh => absurd hh hs⟩

theorem released {sr b : ℚ} {canc : Bool} {e : Env} (h : Hist sr b canc e) (hd : DelayOk e) {ρ : ℚ} (hr : e.releaseRate ≤ ρ) (hρ : ρ < 1) (d : Int) (hd0 : 0 ≤ d) :
    ∃ K N m, Ends ρ K N b canc (startRelease e d) m := by
  obtain ⟨K, hK⟩ := exists_consts ⟨le_trans h.range.rel.1 hr, hρ⟩ thr thr_pos
  obtain ⟨N, hN⟩ := exists_nat_ge e.trans
  obtain ⟨M, hM⟩ := exists_fade h.fade
  obtain ⟨hrate, hb0, hbv, hbc, hstep, hdec, hrel, hstart, hsus, hcur, hdelta⟩ := h.range
  have hc : Consts ρ K N (startRelease e d) := ⟨⟨hr, le_of_lt hρ⟩, hK, hN⟩
  have hir : InRange b canc (startRelease e d) := ⟨hrate, hb0, hbv, hbc, hstep, hdec, hrel, hstart, hsus, hcur, hdelta⟩
  refine ⟨K, N, (max e.delay 0).toNat + d.toNat + 1 + K + N + M, hir, h.fade, rfl, hd, hc, ?_, hM _ (by omega), fun _ => ⟨K, cur_release hir hc, by omega⟩, ?_, ?_⟩
  · show (-1 : Int) ≤ d; omega
  · intro _
    show max e.delay 0 + d + 1 + K + N ≤ _
    push_cast; omega
  · intro _
    show max e.delay 0 + K + N ≤ _
    push_cast; omega

/-- C35 (partial): after any history without a cancelled release, a released envelope ends: there is a number of frames `m`
such that however more than `m` frames are asked for, the envelope has ended and gives only zeros afterwards.
Parameters may change dynamically with bounded release times.
Missing: a dynamic envelope released in its delay stage (see `dynamic_delay_violated`) and cancelled releases
(see `cancelled_delay_violated`). -/
theorem released_ends_partial (sr : ℚ) (hsr : 0 < sr) (d : Int) (p : Params) (hp : p.Ok) (os : Bool) (ops : List Op)
    (hops : ∀ op ∈ ops, op.Ok sr ∧ op ≠ .cancel) (ρ : ℚ) (hρ : ρ < 1) (hr : (history sr d p os ops).2.releaseRate ≤ ρ) (delay : Int) (hdelay : 0 ≤ delay) :
    ∃ m, ∀ ops', (∀ op ∈ ops', Plays ρ op) → ((history sr d p os ops).2.state ≠ .delay ∨ ∀ op ∈ ops', Static op) → m < total ops' →
      (runAll (startRelease (history sr d p os ops).2 delay) ops').2.state = .done ∧
      ∀ ops'', (∀ op ∈ ops'', Plays ρ op) → ∀ y ∈ (runAll (runAll (startRelease (history sr d p os ops).2 delay) ops').2 ops'').1, y = 0 := by
  have hs := started (canc := false) hsr (le_refl (vz * 20 / sr)) (fun hh => by cases hh) d p hp os
  obtain ⟨_, h⟩ := runAll_hist ops _ hs (fun op ho => ⟨(hops op ho).1, fun hh => absurd hh (hops op ho).2⟩)
  have hh : (history sr d p os ops).2 = (runAll (reset (fresh sr) sr d p os) ops).2 := rfl
  rw [hh] at hr ⊢
  obtain ⟨K, N, m, hm⟩ := released h (h.delay rfl) hr hρ delay hdelay
  refine ⟨m, fun ops' ho hd ht => ?_⟩
  rcases ends_runAll ops' _ m hm ho hd with ⟨h1, _⟩ | h1
  · omega
  · exact ⟨h1.state, fun ops'' ho'' => (over_runAll ops'' _ h1 ho'').2⟩

example : (history 100 0 organ false [.get 20, .release 2, .get 9]).2.state = .fadeout ∧
    (history 100 0 organ false [.get 20, .release 2, .get 9, .get 4]).2.state = .done :=
  ⟨observe (fun r => r.2.state) _ _ _ (by decide +kernel), observe (fun r => r.2.state) _ _ _ (by decide +kernel)⟩

theorem auto_runAll {ρ : ℚ} {K N J D B : Nat} {b : ℚ} {canc : Bool} (ns : List Nat) (hns : ∀ n ∈ ns, n ≤ B) (e : Env) (m : Nat)
    (h : Auto ρ K N J D B b canc e m) (hm : m < ns.sum) : Over (runAll e (ns.map .get)).2 := by
  induction ns generalizing e m with
  | nil => simp at hm
  | cons n ns ih =>
    have hrest : ∀ op ∈ ns.map Op.get, Plays ρ op := by
      intro op hop; obtain ⟨k, _, rfl⟩ := List.mem_map.mp hop; trivial
    have hstat : ∀ op ∈ ns.map Op.get, Static op := by
      intro op hop; obtain ⟨k, _, rfl⟩ := List.mem_map.mp hop; trivial
    rw [List.sum_cons] at hm
    show Over (runAll (block e n).2 (ns.map .get)).2
    rcases auto_block e m n (hns n (List.mem_cons_self ..)) h with ⟨h1, h2 | h2⟩ | h1
    · exact ih (fun k hk => hns k (List.mem_cons_of_mem _ hk)) _ _ h2 (by omega)
    · rcases ends_runAll (ns.map .get) _ _ h2 hrest (Or.inr hstat) with ⟨h3, _⟩ | h3
      · have : total (ns.map Op.get) = ns.sum := by
          unfold total
          rw [List.map_map]
          congr 1
          exact List.map_id _
        omega
      · exact h3
    · exact (over_runAll _ _ h1 hrest).1

/-- C35 (partial): a one-shot envelope (sustain at most 0.0032, or a one-shot oscillator) with constant parameters ends by
itself: for every maximal block size `B` there is a number of frames `m` such that however more than `m` frames are
asked for in blocks of at most `B`, the envelope has ended and gives only zeros afterwards.
Missing: a bound that does not depend on the block size (see `split_violated`) and dynamic parameters (see
`dynamic_hold_violated`). -/
theorem oneshot_ends_partial (sr : ℚ) (hsr : 0 < sr) (d : Int) (p : Params) (hp : p.Ok) (hdec : p.decayRate < 1) (hrel : p.releaseRate < 1) (os : Bool)
    (hone : p.sustain ≤ 32 / 10000 ∨ os = true) (B : Nat) :
    ∃ m, ∀ ns : List Nat, (∀ n ∈ ns, n ≤ B) → m < ns.sum →
      (history sr d p os (ns.map .get)).2.state = .done ∧
      ∀ n, ∀ y ∈ (block (history sr d p os (ns.map .get)).2 n).1, y = 0 := by
  have h := started (canc := false) hsr (le_refl (vz * 20 / sr)) (fun hh => by cases hh) d p hp os
  have hh : ∀ ns : List Nat, (history sr d p os (ns.map .get)).2 = (runAll (reset (fresh sr) sr d p os) (ns.map .get)).2 := fun _ => rfl
  have hfr : (reset (fresh sr) sr d p os).freeRunning = true := by
    show (decide (max (min p.sustain 1) 0 ≤ 32 / 10000) || os) = true
    rcases hone with h1 | h1
    · rw [Bool.or_eq_true]; left
      exact decide_eq_true (max_le (le_trans (min_le_left _ _) h1) (by norm_num))
    · rw [h1, Bool.or_true]
  have hpr : (reset (fresh sr) sr d p os).releaseRate = p.releaseRate := rfl
  have hpd : (reset (fresh sr) sr d p os).decayRate = p.decayRate := rfl
  have hps : (reset (fresh sr) sr d p os).attackStep = p.attackStep := rfl
  have hsd : (reset (fresh sr) sr d p os).state = .delay := rfl
  have hsr0 : (reset (fresh sr) sr d p os).shouldRelease = false := rfl
  have hrd0 : (reset (fresh sr) sr d p os).releaseDelay = 0 := rfl
  generalize reset (fresh sr) sr d p os = e at *
  obtain ⟨K, hK⟩ := exists_consts ⟨hp.rel.1, hrel⟩ thr thr_pos
  obtain ⟨D, hD⟩ := exists_consts ⟨hp.decay.1, hdec⟩ vz (by unfold vz; norm_num)
  obtain ⟨N, hN⟩ := exists_nat_ge e.trans
  obtain ⟨J, hJ⟩ := exists_nat_ge ((1 + vz * 20 / sr) / p.attackStep)
  rw [div_le_iff₀ hp.step] at hJ
  have ha : Auto p.releaseRate K N J D B (vz * 20 / sr) false e ((max e.delay 0).toNat + J + (max e.hold 0).toNat + D + B + 1 + K + N) := by
    refine ⟨h.range, hsr0, hfr, h.delay rfl, ⟨⟨le_of_eq hpr, le_of_lt hrel⟩, hK, hN⟩, ⟨by rw [hps]; linarith, by rw [hpd]; exact hD⟩, Or.inr hrd0,
      by rw [hsd]; simp [St.index], by omega, fun hh => absurd hh (by simp [hsd]), fun hh => absurd hh (by simp [hsd]), fun hh => absurd hh (by simp [hsd]), fun _ => ?_⟩
    push_cast; omega
  refine ⟨(max e.delay 0).toNat + J + (max e.hold 0).toNat + D + B + 1 + K + N, fun ns hns hm => ?_⟩
  have ho := auto_runAll ns hns e _ ha hm
  rw [hh]
  exact ⟨ho.state, fun n => over_zero ho n⟩

example : (history 100 0 drum false ([10, 5, 10].map .get)).2.state = .done :=
  observe (fun r => r.2.state) _ _ _ (by decide +kernel)

/-! ### What fails -/

/-- C35 fails for the splitting into blocks: a percussive envelope gives different levels. -/
theorem split_violated : (history 100 0 drum false [.get 20]).1 ≠ (history 100 0 drum false [.get 10, .get 10]).1 := by
  intro h
  have h1 : ((history 100 0 drum false [.get 20]).1)[15]? = some (1 / 65536) := observe (fun r => r.1[15]?) _ _ _ (by decide +kernel)
  have h2 : ((history 100 0 drum false [.get 10, .get 10]).1)[15]? = some 0 := observe (fun r => r.1[15]?) _ _ _ (by decide +kernel)
  rw [h, h2] at h1
  exact absurd h1 (by decide +kernel)

/-- C35 fails: with a dynamic envelope, a delay of more than 16 frames does not end (here 20 frames of delay, 1600 frames
asked for), so that the note is never heard and a note-off does not release it. -/
theorem dynamic_delay_violated : (history 100 0 { organ with delay := 20 } false
    [.getDynamic (fun _ => { organ with delay := 20 }) 800, .release 0, .getDynamic (fun _ => { organ with delay := 20 }) 800]).2.state = .delay :=
  observe (fun r => r.2.state) _ _ _ (by decide +kernel)

/-- C35 fails: with a dynamic envelope, a hold stage of more than 16 frames does not end (here 20 frames of hold of a
percussive envelope, 1600 frames asked for). -/
theorem dynamic_hold_violated : (history 100 0 { drum with hold := 20 } false
    [.getDynamic (fun _ => { drum with hold := 20 }) 1600]).2.state = .hold :=
  observe (fun r => r.2.state) _ _ _ (by decide +kernel)

/-- C35 fails: an envelope whose release is cancelled during the delay stage does not end after a later release. -/
theorem cancelled_delay_violated : (history 100 0 organ false [.get 1, .release 0, .get 1, .cancel, .get 100, .release 0, .get 1000]).2.state = .sustain :=
  observe (fun r => r.2.state) _ _ _ (by decide +kernel)

end Verif.Adsr
