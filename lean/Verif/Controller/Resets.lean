import Verif.Controller.Props

/-!
Controllers as modulation sources (C81), continued: all controllers reset, sample rates, and which sources are shared by voices.
-/
namespace Verif.Controller

/-- The sample rate after a history of calls of a new source. -/
def rateAfter : List Op → ℚ
  | [] => 48000
  | ops@(_ :: _) => ((ops.reverse.findSome? fun
      | .setSampleRate r => some r
      | _ => none).getD 48000)

theorem rateAfter_snoc (ops : List Op) (op : Op) : rateAfter (ops ++ [op]) =
    match op with
    | .setSampleRate r => r
    | _ => rateAfter ops := by
  have h : ∀ ops : List Op, rateAfter ops = ((ops.reverse.findSome? fun
      | .setSampleRate r => some r
      | _ => none).getD 48000) := by
    intro ops; cases ops <;> rfl
  rw [h, h, List.reverse_append]
  cases op <;> simp

/-- A single call. -/
def call (s : State) : Op → Option (List (Key × Option Nat × List ℚ) × State)
  | .init k w => some ([], init s k w)
  | .setSampleRate r => some ([], setSampleRate s r)
  | .resetSmoothers w => some ([], resetSmoothers s w)
  | .generate k v w n => (generate s k v w n).map (fun p => ([(k, v, p.1)], p.2))

theorem run_cons (s : State) (op : Op) (ops : List Op) : run s (op :: ops) =
    (call s op).bind (fun a => (run a.2 ops).map (fun b => (a.1 ++ b.1, b.2))) := by
  cases op with
  | generate k v w n =>
    simp only [run, call]
    cases generate s k v w n with
    | none => rfl
    | some p => cases hr : run p.2 ops <;> simp [hr]
  | init k w => simp only [run, call, Option.bind_some]; cases run (init s k w) ops <;> rfl
  | setSampleRate r => simp only [run, call, Option.bind_some]; cases run (setSampleRate s r) ops <;> rfl
  | resetSmoothers w => simp only [run, call, Option.bind_some]; cases run (resetSmoothers s w) ops <;> rfl

theorem run_append (ops ops' : List Op) : ∀ s, run s (ops ++ ops') =
    (run s ops).bind (fun a => (run a.2 ops').map (fun b => (a.1 ++ b.1, b.2))) := by
  induction ops with
  | nil => intro s; simp only [List.nil_append, run, Option.bind_some]; cases run s ops' <;> rfl
  | cons op ops ih =>
    intro s
    rw [List.cons_append, run_cons, run_cons]
    cases call s op with
    | none => rfl
    | some a =>
      simp only [Option.bind_some, ih]
      cases run a.2 ops with
      | none => rfl
      | some b =>
        simp only [Option.bind_some, Option.map_some]
        cases run b.2 ops' with
        | none => rfl
        | some c => simp

/-- What every history of a new source keeps: the rate is the last one set, every smoother has the length of its key at that
rate, and every smoothed source that was started has a smoother. -/
structure Tuned (ops : List Op) (s : State) : Prop where
  rate : s.sampleRate = rateAfter ops
  frames : ∀ k p, s.smoothers k = some p → p.1 = Smoother.smoothFrames k.smooth s.sampleRate
  started : ∀ k w, Op.init k w ∈ ops → 0 < k.smooth → (s.smoothers k).isSome

theorem Tuned.call {ops : List Op} {s : State} (h : Tuned ops s) (op : Op) {out : List (Key × Option Nat × List ℚ)} {t : State}
    (hc : call s op = some (out, t)) : Tuned (ops ++ [op]) t := by
  cases op with
  | init k w =>
    simp only [Controller.call, Option.some.injEq, Prod.mk.injEq] at hc
    obtain ⟨_, rfl⟩ := hc
    refine ⟨by rw [rateAfter_snoc]; exact h.rate, ?_, ?_⟩
    · intro j p hj
      simp only [init] at hj ⊢
      by_cases hjk : j = k
      · subst hjk
        by_cases h0 : 0 < j.smooth
        · simp only [if_true, h0, Option.some.injEq] at hj; rw [← hj]
        · simp [h0] at hj
      · simp only [hjk, if_false] at hj; exact h.frames j p hj
    · intro j w' hm hj
      simp only [init]
      by_cases hjk : j = k
      · subst hjk; simp [hj]
      · simp only [hjk, if_false]
        refine h.started j w' ?_ hj
        rcases List.mem_append.mp hm with hm | hm
        · exact hm
        · simp at hm; exact absurd hm.1 hjk
  | setSampleRate r =>
    simp only [Controller.call, Option.some.injEq, Prod.mk.injEq] at hc
    obtain ⟨_, rfl⟩ := hc
    have hst : ∀ k w, Op.init k w ∈ ops ++ [Op.setSampleRate r] → Op.init k w ∈ ops := by
      intro k w hm
      rcases List.mem_append.mp hm with hm | hm
      · exact hm
      · simp at hm
    unfold setSampleRate
    by_cases hr : s.sampleRate = r
    · rw [if_pos hr]
      exact ⟨by rw [rateAfter_snoc]; exact hr, h.frames, fun k w hm hk => h.started k w (hst k w hm) hk⟩
    · rw [if_neg hr]
      refine ⟨by rw [rateAfter_snoc], ?_, ?_⟩
      · intro k p hp
        simp only [Option.map_eq_some_iff] at hp
        obtain ⟨q, _, rfl⟩ := hp
        rfl
      · intro k w hm hk
        simp only [Option.isSome_map]
        exact h.started k w (hst k w hm) hk
  | resetSmoothers w =>
    simp only [Controller.call, Option.some.injEq, Prod.mk.injEq] at hc
    obtain ⟨_, rfl⟩ := hc
    refine ⟨by rw [rateAfter_snoc]; exact h.rate, ?_, ?_⟩
    · intro k p hp
      simp only [resetSmoothers, Option.map_eq_some_iff] at hp
      obtain ⟨q, hq, rfl⟩ := hp
      exact h.frames k q hq
    · intro k w' hm hk
      simp only [resetSmoothers, Option.isSome_map]
      refine h.started k w' ?_ hk
      rcases List.mem_append.mp hm with hm | hm
      · exact hm
      · simp at hm
  | generate k v w n =>
    simp only [Controller.call, generate, Option.map_map, Option.map_eq_some_iff, Function.comp, Prod.mk.injEq] at hc
    obtain ⟨b, _, _, rfl⟩ := hc
    refine ⟨by rw [rateAfter_snoc, smoothen_rate]; exact h.rate, ?_, ?_⟩
    · intro j p hp
      rw [smoothen_rate]
      by_cases hjk : j = k
      · subst hjk
        unfold smoothen at hp
        cases hq : s.smoothers j with
        | none => rw [hq] at hp; simp [hq] at hp
        | some q =>
          rw [hq] at hp
          simp only [if_true, Option.some.injEq] at hp
          rw [← hp]
          exact h.frames j q hq
      · rw [smoothen_other _ _ _ _ hjk] at hp
        exact h.frames j p hp
    · intro j w' hm hj
      have hm' : Op.init j w' ∈ ops := by
        rcases List.mem_append.mp hm with hm | hm
        · exact hm
        · simp at hm
      have := h.started j w' hm' hj
      by_cases hjk : j = k
      · subst hjk
        unfold smoothen
        cases hq : s.smoothers j with
        | none => rw [hq] at this; simp at this
        | some q => simp
      · rw [smoothen_other _ _ _ _ hjk]; exact this

theorem tuned (ops : List Op) : ∀ (pre : List Op) (s : State) out t, Tuned pre s → run s ops = some (out, t) →
    Tuned (pre ++ ops) t := by
  induction ops with
  | nil =>
    intro pre s out t h hr
    simp only [run, Option.some.injEq, Prod.mk.injEq] at hr
    rw [List.append_nil, ← hr.2]; exact h
  | cons op ops ih =>
    intro pre s out t h hr
    rw [run_cons] at hr
    cases hc : call s op with
    | none => simp [hc] at hr
    | some a =>
      simp only [hc, Option.bind_some, Option.map_eq_some_iff, Prod.mk.injEq] at hr
      obtain ⟨b, hb, _, rfl⟩ := hr
      have := ih (pre ++ [op]) a.2 b.1 b.2 (h.call op (out := a.1) (t := a.2) hc) hb
      rwa [List.append_assoc, List.singleton_append] at this

/-- **C81, reset.** After every history in which a smoothed source was started, when all controllers are reset, the following
buffers of the source are the output of a smoother that starts anew from the value of the controller then, with the length
that belongs to the sample rate set last: nothing of the old value is left. -/
theorem smoothed_after_reset (pre ops : List Op) (k : Key) (hk : 0 < k.smooth) (w₀ w : World) (hi : Op.init k w₀ ∈ pre)
    (hg : ∀ op ∈ ops, isGenerate op = true) (out : List (Key × Option Nat × List ℚ)) (t : State)
    (h : run fresh (pre ++ .resetSmoothers w :: ops) = some (out, t)) :
    ∃ early late s, run fresh pre = some (early, s) ∧ out = early ++ late ∧
      ((buffersOf k late).map (·.2)).flatten =
        (Smoother.run (Smoother.smoothFrames k.smooth (rateAfter pre))
          (Smoother.reset (w.curve k.curve (lastValue w k.cc))) (blocks k ops)).1 := by
  rw [run_append] at h
  cases hp : run fresh pre with
  | none => simp [hp] at h
  | some a =>
    simp only [hp, Option.bind_some, Option.map_eq_some_iff, Prod.mk.injEq] at h
    obtain ⟨b, hb, h1, rfl⟩ := h
    have ht : Tuned pre a.2 := by
      have := tuned pre [] fresh a.1 a.2 ⟨rfl, by simp [fresh], by simp⟩ hp
      simpa using this
    refine ⟨a.1, b.1, a.2, rfl, h1.symm, ?_⟩
    obtain ⟨p, hq⟩ := Option.isSome_iff_exists.mp (ht.started k w₀ hi hk)
    have hf := ht.frames k p hq
    rw [← ht.rate, ← hf]
    simp only [run] at hb
    exact run_generates k _ ops hg (resetSmoothers a.2 w) _ b.1 b.2 (by simp [resetSmoothers, hq, lastTransformed]) hb

/-- Controller 7 at 1, then at 1/2 after the rate went to 96 kHz and the controllers were reset: the second block has no ramp. -/
example : ∃ out t, run fresh ([.init (makeKey 0 7 0 1 0) { sampleWorld with events := fun _ => [⟨0, 1⟩] },
      .setSampleRate 96000] ++ .resetSmoothers sampleWorld ::
      [.generate (makeKey 0 7 0 1 0) none sampleWorld 2,
       .generate (makeKey 0 7 0 1 0) none { sampleWorld with events := fun _ => [⟨0, 1⟩] } 2]) = some (out, t) ∧
    buffersOf (makeKey 0 7 0 1 0) out = [(none, [1/2, 1/2]), (none, [97/192, 49/96])] :=
  ⟨_, _, rfl, by decide +kernel⟩

/-- **C81, sharing (partial).** A source that is shared by the voices (its key names no region) has the same value for all of
them, and for no voice at all. Missing: the pressure of the key, controller 130, see `sharing_violated`. -/
theorem sharing_partial (region cc curve smooth : Nat) (step : ℚ) (h : cc ≠ 130)
    (hs : (makeKey region cc curve smooth step).region = none) (w : World) (v v' : Option Nat) (n : Nat) :
    raw w (makeKey region cc curve smooth step) v n = raw w (makeKey region cc curve smooth step) v' n := by
  have hp : ¬ isPerVoice cc = true := by
    intro hp; simp [makeKey, hp] at hs
  have hf : ∀ u, fillValue w u cc = none := by
    intro u
    simp only [isPerVoice, List.mem_cons, List.not_mem_nil, or_false, decide_eq_true_eq, not_or] at hp
    simp [fillValue, h, hp]
  unfold raw
  simp only [makeKey, hf]

example : (makeKey 3 7 0 0 0).region = none ∧ raw sampleWorld (makeKey 3 7 0 0 0) (some 1) 2 =
    raw sampleWorld (makeKey 3 7 0 0 0) (some 2) 2 :=
  ⟨rfl, sharing_partial 3 7 0 0 0 (by decide) rfl _ _ _ _⟩

/-- **C81, sharing.** The pressure of the key is shared by the voices though it belongs to the key of each: two voices, two
values, one source. -/
theorem sharing_violated : ∃ w : World, (makeKey 0 130 0 0 0).region = none ∧
    raw w (makeKey 0 130 0 0 0) (some 1) 1 ≠ raw w (makeKey 0 130 0 0 0) (some 2) 1 :=
  ⟨{ sampleWorld with pressure := fun k => if k = 60 then 1 else 0 }, by decide +kernel, by decide +kernel⟩

end Verif.Controller
