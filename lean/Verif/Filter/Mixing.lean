import Verif.Filter.Wrapper

/-!
# Moving controls

C97 (violation): a band at 0 dB is not transparent while its frequency moves.
C99: filtering a mix is mixing the filtered parts, whatever the controls do.
-/

namespace Verif.Filter

open _root_.Filter Topology Real

/-- The smoothing pole of the generated code, `exp(0 - 1000 / fs)` (`sfzLpf2p.hxx:76`). -/
noncomputable def pole (fs : ℝ) : ℝ := exp (0 - 1000 / fs)

/-- C97 is violated: a peak filter whose gain stays at 0 dB but whose frequency moves between
two blocks does not pass the sound unchanged. -/
theorem flat_band_violated :
    ∃ (fs : ℝ) (ctl : ℕ → Ctl) (h : Holder Coefs (List Delay)) (blocks : List (List (List ℝ))),
      (∀ i, Below fs (ctl i) ∧ (ctl i).gain = 0) ∧
      (play (biquad .peq 1 fs) (pole fs) ctl h.setup blocks).2 ≠ blocks.flatten := by
  refine ⟨48000, fun i => ⟨if i = 0 then 12000 else 8000, 0, 0⟩,
    ⟨⟨⟨0, 0, 0, 0, 0⟩, [[]]⟩, false⟩, [[[1]], [[0]]],
    fun i => ⟨⟨by norm_num, Or.inr (by norm_num)⟩, rfl⟩, ?_⟩
  have c1 : clampHz 12000 = 12000 := clampHz_id (by norm_num) (by norm_num)
  have c2 : clampHz 8000 = 8000 := clampHz_id (by norm_num) (by norm_num)
  have a1 : angle 48000 12000 = π / 2 := by rw [angle_eq, c1]; ring
  have a2 : angle 48000 8000 = π / 3 := by rw [angle_eq, c2]; ring
  have hA : ampl 0 = 1 := by simp [ampl]
  have hp : pole 48000 < 1 := by
    unfold pole; rw [exp_lt_one_iff]; norm_num
  have hb1 : (target .peq 48000 ⟨12000, 0, 0⟩).b1 = 0 := by
    simp [target, peqCoefs, a1]
  have ha1 : (target .peq 48000 ⟨12000, 0, 0⟩).a1 = 0 := by
    simp [target, peqCoefs, a1]
  have hb0 : (target .peq 48000 ⟨12000, 0, 0⟩).b0 = 1 :=
    (target_flat .peq (by simp) (p := ⟨12000, 0, 0⟩)
      ⟨by norm_num, Or.inr (by norm_num)⟩ rfl).1
  have ha2 : (target .peq 48000 ⟨8000, 0, 0⟩).a1 < 0 := by
    have hs : 0 < sin (π / 3) :=
      sin_pos_of_pos_of_lt_pi (by linarith [pi_pos]) (by linarith [pi_pos])
    have hl := linQ_pos 0
    simp only [target, peqCoefs, a2, hA, max_linQ, cos_pi_div_three]
    apply div_neg_of_neg_of_pos (by norm_num)
    positivity
  intro h
  have e : (play (biquad .peq 1 48000) (pole 48000)
      (fun i => ⟨if i = 0 then 12000 else 8000, 0, 0⟩)
      (Holder.setup ⟨⟨⟨0, 0, 0, 0, 0⟩, [[]]⟩, false⟩) [[[1]], [[0]]]).2
      = [[(target .peq 48000 ⟨12000, 0, 0⟩).b0],
        [(target .peq 48000 ⟨12000, 0, 0⟩).b1
          - ((1 - pole 48000) * (target .peq 48000 ⟨8000, 0, 0⟩).a1
              + pole 48000 * (target .peq 48000 ⟨12000, 0, 0⟩).a1)
            * (target .peq 48000 ⟨12000, 0, 0⟩).b0]] := by
    simp only [play, Holder.process, Holder.setup, modulated, modulatedFuel, compute, frame,
      chans, prepare, cleared, biquad, interval, List.length_cons, List.length_nil, List.take,
      List.drop, List.replicate, List.append_nil, cascade, sect, List.cons_append,
      List.nil_append, Coefs.mix, mix, zero_add, one_ne_zero, if_true, if_false,
      Bool.false_eq_true, reduceIte]
    simp only [List.cons.injEq, and_true]
    constructor <;> ring
  rw [e, hb0, hb1, ha1] at h
  simp only [List.flatten_cons, List.flatten_nil, List.append_nil, List.cons_append,
    List.nil_append, List.cons.injEq, and_true, true_and] at h
  nlinarith

/-! ### C99: superposition -/

/-- A way to say that one memory is `a` times a second plus `b` times a third. -/
structure Linear {C D : Type} (F : Dsp C D) where
  Comb : ℝ → ℝ → D → D → D → Prop
  start : ∀ a b, Comb a b F.d0 F.d0 F.d0
  step : ∀ a b c d1 d2 d3 x1 x2, Comb a b d1 d2 d3 →
    Comb a b (F.run c d1 x1).1 (F.run c d2 x2).1 (F.run c d3 (a * x1 + b * x2)).1 ∧
      (F.run c d3 (a * x1 + b * x2)).2 = a * (F.run c d1 x1).2 + b * (F.run c d2 x2).2

/-- Memories of sections, combined entry by entry. -/
def DelayComb (a b : ℝ) : List Delay → List Delay → List Delay → Prop
  | [], [], [] => True
  | d :: ds, e :: es, f :: fs =>
    f.v0 = a * d.v0 + b * e.v0 ∧ f.v1 = a * d.v1 + b * e.v1 ∧ f.v2 = a * d.v2 + b * e.v2 ∧
      f.y = a * d.y + b * e.y ∧ DelayComb a b ds es fs
  | _, _, _ => False

lemma cascade_comb (a b : ℝ) (c : Coefs) (d1 d2 d3 : List Delay) (x1 x2 : ℝ)
    (h : DelayComb a b d1 d2 d3) :
    DelayComb a b (cascade c d1 x1).1 (cascade c d2 x2).1 (cascade c d3 (a * x1 + b * x2)).1 ∧
      (cascade c d3 (a * x1 + b * x2)).2 = a * (cascade c d1 x1).2 + b * (cascade c d2 x2).2 := by
  induction d1 generalizing d2 d3 x1 x2 with
  | nil =>
    cases d2 <;> cases d3 <;> simp_all [DelayComb, cascade]
  | cons d ds ih =>
    cases d2 with
    | nil => cases d3 <;> simp [DelayComb] at h
    | cons e es =>
      cases d3 with
      | nil => simp [DelayComb] at h
      | cons f fs =>
        obtain ⟨h0, h1, h2, hy, ht⟩ := h
        have hout : (sect c f (a * x1 + b * x2)).2
            = a * (sect c d x1).2 + b * (sect c e x2).2 := by
          simp only [sect, h0, h2, hy]; ring
        have := ih es fs (sect c d x1).2 (sect c e x2).2 ht
        simp only [cascade, hout]
        refine ⟨⟨?_, ?_, ?_, ?_, this.1⟩, this.2⟩
        · simp only [sect]; ring
        · simp only [sect]; ring
        · simp only [sect, h1, hy]; ring
        · simp only [sect, h0, h2, hy]; ring

/-- Second-order filters are linear. -/
def biquadLinear (k : Shape) (m : ℕ) (fs : ℝ) : Linear (biquad k m fs) where
  Comb := DelayComb
  start a b := by
    show DelayComb a b (List.replicate m _) (List.replicate m _) (List.replicate m _)
    induction m with
    | zero => trivial
    | succ m ih => simp only [List.replicate_succ, DelayComb]; simp [ih]
  step a b c d1 d2 d3 x1 x2 h := cascade_comb a b c d1 d2 d3 x1 x2 h

/-- First-order filters are linear. -/
def onePoleLinear (k : Pole) (fs : ℝ) : Linear (onePole k fs) where
  Comb a b d e f := f.r = a * d.r + b * e.r ∧ f.t = a * d.t + b * e.t
  start a b := by simp [onePole]
  step a b c d e f x1 x2 h := by
    obtain ⟨h1, h2⟩ := h
    cases k <;> simp only [onePole, poleRun, h1, h2] <;> refine ⟨⟨?_, ?_⟩, ?_⟩ <;> ring

/-- State-variable filters are linear. -/
def stateVarLinear (k : SvKind) (fs : ℝ) : Linear (stateVar k fs) where
  Comb a b d e f := f.s1 = a * d.s1 + b * e.s1 ∧ f.s2 = a * d.s2 + b * e.s2
  start a b := by simp [stateVar]
  step a b c d e f x1 x2 h := by
    obtain ⟨h1, h2⟩ := h
    cases k <;> simp only [stateVar, svRun, h1, h2] <;> refine ⟨⟨?_, ?_⟩, ?_⟩ <;> ring

/-- The pink filter is linear. -/
def pinkLinear : Linear pink where
  Comb a b d e f := f.r1 = a * d.r1 + b * e.r1 ∧ f.r2 = a * d.r2 + b * e.r2 ∧
    f.r3 = a * d.r3 + b * e.r3
  start a b := by simp [pink]
  step a b c d e f x1 x2 h := by
    obtain ⟨h1, h2, h3⟩ := h
    simp only [pink, pinkRun, h1, h2, h3]
    refine ⟨⟨?_, ?_, ?_⟩, ?_⟩ <;> (try simp only [and_true, true_and]) <;> ring

section
variable {C D : Type} {F : Dsp C D}

/-- Two mono sounds mixed. -/
def blend (a b : ℝ) (xs ys : List ℝ) : List ℝ := List.zipWith (fun x y => a * x + b * y) xs ys

/-- A mono sound as frames. -/
def mono (xs : List ℝ) : List (List ℝ) := xs.map (fun x => [x])

lemma perFrame_blend (L : Linear F) (s a b : ℝ) (ctl : ℕ → Ctl) (c : C) (d1 d2 d3 : D)
    (h : L.Comb a b d1 d2 d3) (xs ys : List ℝ) (hl : xs.length = ys.length) :
    ∃ c' e1 e2 e3 o1 o2, L.Comb a b e1 e2 e3 ∧
      perFrame F s ctl ⟨c, [d1]⟩ (mono xs) = (⟨c', [e1]⟩, mono o1) ∧
      perFrame F s ctl ⟨c, [d2]⟩ (mono ys) = (⟨c', [e2]⟩, mono o2) ∧
      perFrame F s ctl ⟨c, [d3]⟩ (mono (blend a b xs ys)) = (⟨c', [e3]⟩, mono (blend a b o1 o2)) ∧
      o1.length = xs.length ∧ o2.length = ys.length := by
  induction xs generalizing ys ctl c d1 d2 d3 with
  | nil =>
    cases ys with
    | nil => exact ⟨c, d1, d2, d3, [], [], h, rfl, rfl, rfl, rfl, rfl⟩
    | cons => simp at hl
  | cons x xs ih =>
    cases ys with
    | nil => simp at hl
    | cons y ys =>
      have st := L.step a b (F.adapt s (ctl 0) c) d1 d2 d3 x y h
      obtain ⟨c', e1, e2, e3, o1, o2, i1, i2, i3, i4, i5, i6⟩ :=
        ih (fun i => ctl (i + 1)) (F.adapt s (ctl 0) c) _ _ _ st.1 ys (by simpa using hl)
      refine ⟨c', e1, e2, e3, (F.run (F.adapt s (ctl 0) c) d1 x).2 :: o1,
        (F.run (F.adapt s (ctl 0) c) d2 y).2 :: o2, i1, ?_, ?_, ?_, by simp [i5], by simp [i6]⟩
      · simp only [mono, List.map_cons, perFrame, frame, chans]
        rw [show xs.map (fun x => [x]) = mono xs from rfl, i2]; rfl
      · simp only [mono, List.map_cons, perFrame, frame, chans]
        rw [show ys.map (fun x => [x]) = mono ys from rfl, i3]; rfl
      · have e : blend a b (x :: xs) (y :: ys) = (a * x + b * y) :: blend a b xs ys := rfl
        have e' : ∀ u v, blend a b (u :: o1) (v :: o2) = (a * u + b * v) :: blend a b o1 o2 :=
          fun _ _ => rfl
        rw [e, e']
        simp only [mono, List.map_cons, perFrame, frame, chans]
        rw [show (blend a b xs ys).map (fun x => [x]) = mono (blend a b xs ys) from rfl, i4, st.2]
        rfl

/-- C99: for every filter type, every history of control values and every way of mixing, the
filter answers the mix of two sounds with the mix of its answers (a block processed from a
cleared memory and any coefficients). -/
theorem superposition (L : Linear F) (s a b : ℝ) (ctl : ℕ → Ctl) (c : C) (xs ys : List ℝ)
    (hl : xs.length = ys.length) :
    ∃ o1 o2 : List ℝ,
      (modulated F s ctl ⟨c, [F.d0]⟩ (mono xs)).2 = mono o1 ∧
      (modulated F s ctl ⟨c, [F.d0]⟩ (mono ys)).2 = mono o2 ∧
      (modulated F s ctl ⟨c, [F.d0]⟩ (mono (blend a b xs ys))).2 = mono (blend a b o1 o2) := by
  obtain ⟨c', e1, e2, e3, o1, o2, -, h1, h2, h3, -, -⟩ :=
    perFrame_blend L s a b (fun i => ctl (i / 16 * 16)) c F.d0 F.d0 F.d0 (L.start a b) xs ys hl
  exact ⟨o1, o2, by rw [control_law, h1], by rw [control_law, h2], by rw [control_law, h3]⟩

end

/-- C99 covers every filter type the engine has. -/
theorem every_filter_linear :
    (∀ k m fs, Nonempty (Linear (biquad k m fs))) ∧ (∀ k fs, Nonempty (Linear (onePole k fs))) ∧
      (∀ k fs, Nonempty (Linear (stateVar k fs))) ∧ Nonempty (Linear pink) :=
  ⟨fun k m fs => ⟨biquadLinear k m fs⟩, fun k fs => ⟨onePoleLinear k fs⟩,
    fun k fs => ⟨stateVarLinear k fs⟩, ⟨pinkLinear⟩⟩

/-- Non-vacuity: two three-sample sounds through a resonant low-pass with a moving cutoff. -/
example (s : ℝ) : ∃ o1 o2 : List ℝ,
    (modulated (biquad .lpf 2 48000) s (fun i => ⟨100 + i, 6, 0⟩)
      ⟨⟨0, 0, 0, 0, 0⟩, [(biquad .lpf 2 48000).d0]⟩ (mono [1, 2, 3])).2 = mono o1 ∧
    (modulated (biquad .lpf 2 48000) s (fun i => ⟨100 + i, 6, 0⟩)
      ⟨⟨0, 0, 0, 0, 0⟩, [(biquad .lpf 2 48000).d0]⟩ (mono [0, -1, 1])).2 = mono o2 ∧
    (modulated (biquad .lpf 2 48000) s (fun i => ⟨100 + i, 6, 0⟩)
      ⟨⟨0, 0, 0, 0, 0⟩, [(biquad .lpf 2 48000).d0]⟩ (mono (blend 2 3 [1, 2, 3] [0, -1, 1]))).2
      = mono (blend 2 3 o1 o2) :=
  superposition (biquadLinear .lpf 2 48000) s 2 3 _ _ _ _ rfl

end Verif.Filter
