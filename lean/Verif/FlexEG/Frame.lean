import Verif.FlexEG.Model

/-!
Lemmas: a turn never stalls, and without free running a block is the sequence of its frames.
-/
namespace Verif.FlexEG

/-- What the transitions leave alone. -/
structure Same (e e' : Env) : Prop where
  period : e'.period = e.period
  until_ : e'.untilRelease = e.untilRelease
  released : e'.released = e.released
  free : e'.freeRunning = e.freeRunning
  delay : e'.delayLeft = e.delayLeft

theorem Same.refl (e : Env) : Same e e := ⟨rfl, rfl, rfl, rfl, rfl⟩

theorem Same.trans {a b c : Env} (h : Same a b) (h' : Same b c) : Same a c :=
  ⟨h'.period.trans h.period, h'.until_.trans h.until_, h'.released.trans h.released, h'.free.trans h.free,
    h'.delay.trans h.delay⟩

theorem update_same (d : Desc) (look : Look) (e : Env) : Same e (update d look e) := by
  unfold update
  split
  · exact Same.refl e
  · exact ⟨rfl, rfl, rfl, rfl, rfl⟩

theorem advance_same (d : Desc) (look : Look) (e : Env) (k : Nat) : Same e (advance d look e k).1 := by
  unfold advance
  cases d.curves[k]? with
  | none => exact ⟨rfl, rfl, rfl, rfl, rfl⟩
  | some c =>
    have := update_same d look { e with stage := k, source := e.level, time := 0 }
    exact ⟨this.1, this.2, this.3, this.4, this.5⟩

theorem complete_same (e : Env) : Same e (complete e) := by
  unfold complete
  split
  · exact ⟨rfl, rfl, rfl, rfl, rfl⟩
  · exact Same.refl e

theorem forward_same (d : Desc) (look : Look) (e : Env) : Same e (forward d look e).1 := by
  fun_induction forward d look e with
  | case1 e h h' ih => exact (advance_same d look e _).trans ih
  | case2 e h h' => exact advance_same d look e _
  | case3 e h => exact Same.refl e

theorem skip_same (d : Desc) (look : Look) (e : Env) : Same e (skip d look e).1 := by
  fun_induction skip d look e with
  | case1 e h h' ih => exact ((complete_same e).trans (advance_same d look _ _)).trans ih
  | case2 e h h' => exact (complete_same e).trans (advance_same d look _ _)
  | case3 e h => exact Same.refl e

theorem forward_stage (d : Desc) (look : Look) (e : Env) :
    e.stage ≤ (forward d look e).1.stage ∧ ((forward d look e).2 = true → d.sustain < (forward d look e).1.stage) ∧
    ((forward d look e).2 = false → d.curves.length ≤ (forward d look e).1.stage) := by
  fun_induction forward d look e with
  | case1 e h h' ih =>
    rw [advance_stage] at ih
    exact ⟨by omega, ih.2⟩
  | case2 e h h' =>
    rw [advance_true] at h'
    rw [advance_stage]
    exact ⟨by omega, by simp, fun _ => by omega⟩
  | case3 e h => exact ⟨le_refl _, fun _ => by dsimp only; omega, by simp⟩

theorem skip_stage (d : Desc) (look : Look) (e : Env) :
    e.stage ≤ (skip d look e).1.stage ∧
    ((skip d look e).2 = true →
      ¬ (((skip d look e).1.sustained = false ∨ (skip d look e).1.freeRunning = true) ∧
        (skip d look e).1.time ≥ (skip d look e).1.stageTime)) ∧
    ((skip d look e).2 = false → d.curves.length ≤ (skip d look e).1.stage) := by
  fun_induction skip d look e with
  | case1 e h h' ih =>
    rw [advance_stage] at ih
    exact ⟨by omega, ih.2⟩
  | case2 e h h' =>
    rw [advance_true] at h'
    rw [advance_stage]
    exact ⟨by omega, by simp, fun _ => by omega⟩
  | case3 e h => exact ⟨le_refl _, fun _ => h, by simp⟩

theorem check_until (e : Env) : (check e).untilRelease ≠ some 0 := by
  unfold check
  split
  · simp
  · assumption

/-- After the transitions of a turn: no release is due, a released envelope is past the sustain stage, and the stage is
not over. -/
theorem prepare_spec (d : Desc) (look : Look) (e : Env) (h : (prepare d look e).2 = true) :
    (prepare d look e).1.untilRelease ≠ some 0 ∧
    ((prepare d look e).1.released = true → d.sustain < (prepare d look e).1.stage) ∧
    ¬ (((prepare d look e).1.sustained = false ∨ (prepare d look e).1.freeRunning = true) ∧
        (prepare d look e).1.time ≥ (prepare d look e).1.stageTime) := by
  unfold prepare at h ⊢
  dsimp only at h ⊢
  cases hr : (check e).released with
  | false =>
    simp only [hr, Bool.false_eq_true, if_false, if_true] at h ⊢
    have s := skip_same d look (check e)
    refine ⟨by rw [s.until_]; exact check_until e, fun h' => ?_, (skip_stage d look _).2.1 h⟩
    rw [s.released, hr] at h'
    simp at h'
  | true =>
    simp only [hr, if_true] at h ⊢
    cases hf : (forward d look (check e)).2 with
    | false => rw [hf] at h; simp [hf] at h
    | true =>
      simp only [hf, if_true] at h ⊢
      have s := (forward_same d look (check e)).trans (skip_same d look (forward d look (check e)).1)
      refine ⟨by rw [s.until_]; exact check_until e, fun h' => ?_, (skip_stage d look _).2.1 h⟩
      have f1 := (forward_stage d look (check e)).2.1 hf
      have f2 := (skip_stage d look (forward d look (check e)).1).1
      omega

theorem check_same (e : Env) : (check e).period = e.period ∧ (check e).freeRunning = e.freeRunning ∧
    (check e).delayLeft = e.delayLeft ∧ (check e).stage = e.stage := by
  unfold check; split <;> exact ⟨rfl, rfl, rfl, rfl⟩

theorem prepare_same (d : Desc) (look : Look) (e : Env) : Same (check e) (prepare d look e).1 := by
  unfold prepare
  dsimp only
  cases hr : (check e).released with
  | false => simpa using skip_same d look (check e)
  | true =>
    simp only [if_true]
    cases hf : (forward d look (check e)).2 with
    | false => simpa [hf] using forward_same d look (check e)
    | true => simpa [hf] using (forward_same d look (check e)).trans (skip_same d look (forward d look (check e)).1)

theorem prepare_end (d : Desc) (look : Look) (e : Env) (h : (prepare d look e).2 = false) :
    d.curves.length ≤ (prepare d look e).1.stage := by
  unfold prepare at h ⊢
  dsimp only at h ⊢
  cases hr : (check e).released with
  | false =>
    simp only [hr, Bool.false_eq_true, if_false, if_true] at h ⊢
    exact (skip_stage d look _).2.2 h
  | true =>
    simp only [hr, if_true] at h ⊢
    cases hf : (forward d look (check e)).2 with
    | false => simp only [hf, Bool.false_eq_true, if_false] at h ⊢; exact (forward_stage d look _).2.2 hf
    | true => simp only [hf, if_true] at h ⊢; exact (skip_stage d look _).2.2 h

theorem prepare_stage (d : Desc) (look : Look) (e : Env) : e.stage ≤ (prepare d look e).1.stage := by
  rw [← (check_same e).2.2.2]
  unfold prepare
  dsimp only
  cases hr : (check e).released with
  | false => simpa using (skip_stage d look (check e)).1
  | true =>
    simp only [if_true]
    have f1 := (forward_stage d look (check e)).1
    have f2 := (skip_stage d look (forward d look (check e)).1).1
    cases hf : (forward d look (check e)).2 with
    | false => simpa using f1
    | true => simp only [if_true]; omega

/-! ### Rendering -/

theorem render_length (n : Nat) (e : Env) : (render n e).1.length ≤ n := by
  induction n generalizing e with
  | zero => simp [render]
  | succ n ih => unfold render; split <;> simp [ih]

theorem render_pos (n : Nat) (e : Env) (h : e.time < e.stageTime ∨ e.sustained = true) :
    0 < (render (n + 1) e).1.length := by
  unfold render
  rw [if_pos h]
  simp

theorem render_countDown (n k : Nat) (e : Env) :
    render n (countDown e k) = ((render n e).1, countDown (render n e).2 k) := by
  induction n generalizing e with
  | zero => rfl
  | succ n ih =>
    unfold render
    have h1 : tick (countDown e k) = countDown (tick e) k := rfl
    rw [h1, ih]
    have h2 : (countDown e k).time = e.time ∧ (countDown e k).stageTime = e.stageTime ∧ (countDown e k).sustained = e.sustained :=
      ⟨rfl, rfl, rfl⟩
    rw [h2.1, h2.2.1, h2.2.2]
    split
    · rfl
    · rfl

theorem render_fields (n : Nat) (e : Env) : (render n e).2.stage = e.stage ∧ Same e (render n e).2 ∧
    (render n e).2.sustained = e.sustained ∧ (render n e).2.stageTime = e.stageTime := by
  induction n generalizing e with
  | zero => exact ⟨rfl, Same.refl e, rfl, rfl⟩
  | succ n ih =>
    unfold render
    split
    · have := ih (tick e)
      exact ⟨this.1, ⟨this.2.1.1, this.2.1.2, this.2.1.3, this.2.1.4, this.2.1.5⟩, this.2.2⟩
    · exact ⟨rfl, Same.refl e, rfl, rfl⟩

theorem countDown_countDown (e : Env) (a b : Nat) : countDown (countDown e a) b = countDown e (a + b) := by
  unfold countDown
  cases h : e.untilRelease with
  | none => simp
  | some k => simp [Nat.sub_add_eq]

theorem allowed_le (e : Env) (n : Nat) : allowed e n ≤ n := by unfold allowed; split <;> omega

theorem allowed_pos (e : Env) (n : Nat) (h : e.untilRelease ≠ some 0) : ∃ m, allowed e (n + 1) = m + 1 ∧
    (m = 0 ∨ (countDown e 1).untilRelease ≠ some 0) ∧ (0 < m → allowed (countDown e 1) n = m ∧ 0 < n) := by
  unfold allowed countDown
  cases hu : e.untilRelease with
  | none => exact ⟨n, rfl, Or.inr (by simp), fun h => ⟨rfl, h⟩⟩
  | some k =>
    have hk : k ≠ 0 := by rintro rfl; exact h hu
    refine ⟨min n (k - 1), by simp only; omega, ?_, fun h => ⟨?_, by omega⟩⟩
    · by_cases h1 : k = 1
      · left; subst h1; simp
      · right; simp only [Option.map_some, ne_eq, Option.some.injEq]; omega
    · simp

/-- Every turn writes a frame: the envelope always renders the block. -/
theorem loop_total (d : Desc) (look : Look) (e : Env) (n : Nat) : ∃ out e', loop d look e n = some (out, e') ∧
    out.length = n := by
  induction n using Nat.strongRecOn generalizing e with
  | ind n ih =>
    unfold loop
    by_cases h0 : n = 0
    · rw [if_pos h0]
      exact ⟨[], e, rfl, h0.symm⟩
    · rw [if_neg h0]
      dsimp only
      cases hp : (prepare d look e).2 with
      | false => exact ⟨_, _, rfl, by simp⟩
      | true =>
        obtain ⟨p1, p2, p3⟩ := prepare_spec d look e hp
        obtain ⟨n, rfl⟩ := Nat.exists_eq_succ_of_ne_zero h0
        obtain ⟨m, hm, _⟩ := allowed_pos (prepare d look e).1 n p1
        have hc : (prepare d look e).1.time < (prepare d look e).1.stageTime ∨ (prepare d look e).1.sustained = true := by
          by_contra hc
          push Not at hc
          exact p3 ⟨Or.inl (by simpa using hc.2), hc.1⟩
        have hpos := render_pos m _ hc
        have hle := render_length (m + 1) (prepare d look e).1
        have := allowed_le (prepare d look e).1 (n + 1)
        rw [Nat.succ_eq_add_one]
        simp only [if_true, hm]
        rw [dif_pos ⟨hpos, by omega⟩]
        obtain ⟨out, e', h1, h2⟩ := ih (n + 1 - (render (m + 1) (prepare d look e).1).1.length) (by omega)
          (countDown (render (m + 1) (prepare d look e).1).2 (render (m + 1) (prepare d look e).1).1.length)
        rw [h1]
        exact ⟨_, _, rfl, by simp only [List.length_append]; omega⟩

/-- The state after one frame. -/
def after (d : Desc) (look : Look) (e : Env) : Env := countDown (tick (prepare d look e).1) 1

theorem skip_id (d : Desc) (look : Look) (e : Env)
    (h : ¬ ((e.sustained = false ∨ e.freeRunning = true) ∧ e.time ≥ e.stageTime)) : skip d look e = (e, true) := by
  unfold skip
  rw [if_neg h]

theorem forward_id (d : Desc) (look : Look) (e : Env) (h : d.sustain < e.stage) : forward d look e = (e, true) := by
  unfold forward
  rw [if_neg (by omega)]

/-- Nothing is to be done before a frame. -/
theorem prepare_id (d : Desc) (look : Look) (e : Env) (h1 : e.untilRelease ≠ some 0)
    (h2 : e.released = true → d.sustain < e.stage)
    (h3 : ¬ ((e.sustained = false ∨ e.freeRunning = true) ∧ e.time ≥ e.stageTime)) : prepare d look e = (e, true) := by
  have hc : check e = e := by unfold check; rw [if_neg h1]
  unfold prepare
  rw [hc]
  dsimp only
  cases hr : e.released with
  | false => simp [skip_id d look e h3]
  | true => simp [forward_id d look e (h2 hr), skip_id d look e h3]

/-- Without free running a block is its first frame followed by the block of the others. -/
theorem loop_succ (d : Desc) (look : Look) (e : Env) (n : Nat) (hf : e.freeRunning = false)
    (hp : (prepare d look e).2 = true) :
    loop d look e (n + 1) =
      (loop d look (after d look e) n).map (fun q => ((tick (prepare d look e).1).level :: q.1, q.2)) := by
  obtain ⟨p1, p2, p3⟩ := prepare_spec d look e hp
  obtain ⟨m, hm, hu, ha⟩ := allowed_pos (prepare d look e).1 n p1
  have hc : (prepare d look e).1.time < (prepare d look e).1.stageTime ∨ (prepare d look e).1.sustained = true := by
    by_contra hc
    push Not at hc
    exact p3 ⟨Or.inl (by simpa using hc.2), hc.1⟩
  have hfree : (prepare d look e).1.freeRunning = false := by
    rw [(prepare_same d look e).free, (check_same e).2.1, hf]
  rw [loop]
  rw [if_neg (by omega)]
  dsimp only
  rw [if_pos hp, hm]
  unfold after
  generalize (prepare d look e).1 = p at *
  have hr : render (m + 1) p = ((tick p).level :: (render m (tick p)).1, (render m (tick p)).2) := by
    conv => lhs; unfold render
    rw [if_pos hc]
  rw [hr]
  dsimp only
  have hlen := render_length m (tick p)
  have hmn : m ≤ n := by
    have := allowed_le p (n + 1)
    omega
  rw [dif_pos ⟨by simp, by simp only [List.length_cons]; omega⟩]
  by_cases hstop : m = 0 ∨ ¬ ((tick p).time < (tick p).stageTime ∨ (tick p).sustained = true)
  · have hend : render m (tick p) = ([], tick p) := by
      cases m with
      | zero => rfl
      | succ m =>
        unfold render
        rw [if_neg (by simpa using hstop)]
    rw [hend]
    simp only [List.length_cons, List.length_nil, Nat.zero_add, Nat.add_sub_cancel]
    cases loop d look (countDown (tick p) 1) n <;> rfl
  · push Not at hstop
    obtain ⟨hm0, hcont⟩ := hstop
    obtain ⟨ha1, hn0⟩ := ha (by omega)
    have hu' : (countDown (tick p) 1).untilRelease ≠ some 0 := by
      rcases hu with h | h
      · exact absurd h hm0
      · exact h
    have hid : prepare d look (countDown (tick p) 1) = (countDown (tick p) 1, true) := by
      apply prepare_id _ _ _ hu'
      · exact p2
      · rintro ⟨h1, h2⟩
        rcases h1 with h1 | h1
        · rcases hcont with h | h
          · exact absurd h (not_lt.mpr h2)
          · have h1' : (tick p).sustained = false := h1
            rw [h1'] at h; simp at h
        · have h1' : p.freeRunning = true := h1
          rw [hfree] at h1'; simp at h1'
    have haa : allowed (countDown (tick p) 1) n = m := ha1
    conv => rhs; rw [loop]
    rw [if_neg (by omega), hid]
    dsimp only
    rw [if_pos rfl, haa, render_countDown]
    dsimp only
    have hpos : 0 < (render m (tick p)).1.length := by
      obtain ⟨m', rfl⟩ := Nat.exists_eq_succ_of_ne_zero hm0
      exact render_pos m' _ hcont
    rw [dif_pos ⟨hpos, by omega⟩, countDown_countDown, Nat.add_comm 1]
    simp only [List.length_cons]
    rw [show n + 1 - ((render m (tick p)).1.length + 1) = n - (render m (tick p)).1.length by omega]
    cases loop d look (countDown (render m (tick p)).2 ((render m (tick p)).1.length + 1)) (n - (render m (tick p)).1.length) <;> rfl

theorem loop_ended (d : Desc) (look : Look) (e : Env) (n : Nat) (hp : (prepare d look e).2 = false) :
    loop d look e (n + 1) = some (List.replicate (n + 1) 0, (prepare d look e).1) := by
  rw [loop]
  rw [if_neg (by omega)]
  simp [hp]

end Verif.FlexEG
