import Verif.Filter.Props

/-!
# Filters in a voice: blocks, history, channels

C98: under constant controls the filter is a function of the sound alone: earlier notes, the
way the sound is cut into blocks and the other channel do not matter.  Under moving controls
the cut matters, because the controls are looked at every 16 frames from the start of each
block.
-/

namespace Verif.Filter

open _root_.Filter Topology Real

/-- What every generated filter satisfies: with smoothing off the coefficients do not depend on
earlier ones, settled coefficients stay, and silence leaves a cleared memory cleared. -/
structure Lawful {C D : Type} (F : Dsp C D) : Prop where
  fresh : ∀ p c c', F.adapt 0 p c = F.adapt 0 p c'
  stays : ∀ s p c, F.adapt s p (F.adapt 0 p c) = F.adapt 0 p c
  quiet : ∀ c, F.run c F.d0 0 = (F.d0, 0)

lemma cascade_quiet (c : Coefs) (m : ℕ) :
    cascade c (List.replicate m ⟨0, 0, 0, 0⟩) 0 = (List.replicate m ⟨0, 0, 0, 0⟩, 0) := by
  induction m with
  | zero => rfl
  | succ m ih => simp [List.replicate_succ, cascade, sect, ih]

lemma biquad_lawful (k : Shape) (m : ℕ) (fs : ℝ) : Lawful (biquad k m fs) where
  fresh p c c' := by simp [biquad, Coefs.mix, mix]
  stays s p c := by
    simp only [biquad, Coefs.mix, mix]
    congr 1 <;> ring
  quiet c := cascade_quiet c m

lemma onePole_lawful (k : Pole) (fs : ℝ) : Lawful (onePole k fs) where
  fresh p c c' := by simp [onePole, mix]
  stays s p c := by simp only [onePole, mix]; ring
  quiet c := by cases k <;> simp [onePole, poleRun]

lemma stateVar_lawful (k : SvKind) (fs : ℝ) : Lawful (stateVar k fs) where
  fresh p c c' := by simp [stateVar, svAdapt, mix]
  stays s p c := by
    have e : mix s (mix 0 c.g (tan (π / fs * clampHz p.cutoff)))
        (tan (π / fs * clampHz p.cutoff)) = mix 0 c.g (tan (π / fs * clampHz p.cutoff)) := by
      simp only [mix]; ring
    simp only [stateVar, svAdapt]
    rw [e]
    congr 1 <;> ring
  quiet c := by cases k <;> simp [stateVar, svRun]

lemma pink_lawful : Lawful pink where
  fresh _ _ _ := rfl
  stays _ _ _ := rfl
  quiet _ := by simp [pink, pinkRun]

section
variable {C D : Type} {F : Dsp C D}

/-- Frame by frame, each frame under its own controls. -/
def perFrame (F : Dsp C D) (s : ℝ) (ctl : ℕ → Ctl) (st : St C D) :
    List (List ℝ) → St C D × List (List ℝ)
  | [] => (st, [])
  | x :: xs =>
    let r := frame F s (ctl 0) st x
    let t := perFrame F s (fun i => ctl (i + 1)) r.1 xs
    (t.1, r.2 :: t.2)

lemma perFrame_append (s : ℝ) (ctl : ℕ → Ctl) (st : St C D) (xs ys : List (List ℝ)) :
    perFrame F s ctl st (xs ++ ys)
      = ((perFrame F s (fun i => ctl (i + xs.length)) (perFrame F s ctl st xs).1 ys).1,
        (perFrame F s ctl st xs).2
          ++ (perFrame F s (fun i => ctl (i + xs.length)) (perFrame F s ctl st xs).1 ys).2) := by
  induction xs generalizing ctl st with
  | nil => simp [perFrame]
  | cons x xs ih =>
    have e : (fun i => ctl (i + (x :: xs).length))
        = (fun i => (fun j => ctl (j + 1)) (i + xs.length)) := by
      funext i; simp only [List.length_cons]; congr 1
    simp only [List.cons_append, perFrame]
    rw [ih, e]

lemma compute_perFrame (s : ℝ) (p : Ctl) (st : St C D) (xs : List (List ℝ)) (ctl : ℕ → Ctl)
    (h : ∀ i, i < xs.length → ctl i = p) : compute F s p st xs = perFrame F s ctl st xs := by
  induction xs generalizing ctl st with
  | nil => rfl
  | cons x xs ih =>
    simp only [compute, perFrame]
    rw [h 0 (by simp), ih _ (fun i => ctl (i + 1)) (fun i hi => h (i + 1) (by simpa using hi))]

lemma perFrame_congr (s : ℝ) (st : St C D) (xs : List (List ℝ)) {ctl ctl' : ℕ → Ctl}
    (h : ∀ i, i < xs.length → ctl i = ctl' i) :
    perFrame F s ctl st xs = perFrame F s ctl' st xs := by
  induction xs generalizing ctl ctl' st with
  | nil => rfl
  | cons x xs ih =>
    simp only [perFrame]
    rw [h 0 (by simp), ih _ (fun i hi => h (i + 1) (by simpa using hi))]

lemma modulatedFuel_eq (s : ℝ) (n : ℕ) (ctl : ℕ → Ctl) (st : St C D) (xs : List (List ℝ))
    (hn : xs.length ≤ n) :
    modulatedFuel F s n ctl st xs
      = perFrame F s (fun i => ctl (i / interval * interval)) st xs := by
  induction n generalizing ctl st xs with
  | zero =>
    have : xs = [] := List.length_eq_zero_iff.mp (by omega)
    subst this; rfl
  | succ n ih =>
    cases xs with
    | nil => rfl
    | cons x xs =>
      have hs : ∀ ys : List (List ℝ), ys = x :: xs →
          perFrame F s (fun i => ctl (i / interval * interval)) st ys
          = perFrame F s (fun i => ctl (i / interval * interval)) st
              (ys.take interval ++ ys.drop interval) := by
        intro ys _; rw [List.take_append_drop]
      rw [hs _ rfl, perFrame_append]
      simp only [modulatedFuel]
      have hlen : ((x :: xs).take interval).length ≤ interval := by simp
      have e1 : compute F s (ctl 0) st ((x :: xs).take interval)
          = perFrame F s (fun i => ctl (i / interval * interval)) st
              ((x :: xs).take interval) := by
        apply compute_perFrame
        intro i hi
        have : i / interval = 0 := Nat.div_eq_of_lt (lt_of_lt_of_le hi hlen)
        simp [this]
      rw [e1]
      by_cases hl : (x :: xs).length ≤ interval
      · have hd : (x :: xs).drop interval = [] := List.drop_eq_nil_of_le hl
        rw [hd]
        have e0 : ∀ c st', modulatedFuel F s n c st' [] = (st', []) := by
          intro c st'; cases n <;> rfl
        rw [e0]; simp [perFrame]
      · have hl' : interval ≤ (x :: xs).length := by omega
        have hlen2 : ((x :: xs).take interval).length = interval := by
          simp only [List.length_take]; omega
        rw [ih]
        · have e2 : (fun i => ctl (i / interval * interval + interval))
              = (fun i => ctl ((i + ((x :: xs).take interval).length) / interval * interval)) := by
            funext i
            rw [hlen2, Nat.add_div_right _ (by decide), Nat.succ_mul]
          rw [← e2]
        · simp only [List.length_drop, List.length_cons] at *
          have : 0 < interval := by decide
          omega

/-- C98, the control law: frame `i` of a block is computed under the controls of the block's
frame `i` rounded down to a multiple of 16. -/
theorem control_law (s : ℝ) (ctl : ℕ → Ctl) (st : St C D) (xs : List (List ℝ)) :
    modulated F s ctl st xs = perFrame F s (fun i => ctl (i / 16 * 16)) st xs :=
  modulatedFuel_eq s _ ctl st xs le_rfl

/-- C98, moving controls: cutting a block after a multiple of 16 frames changes nothing. -/
theorem cut_at_interval (s : ℝ) (ctl : ℕ → Ctl) (st : St C D) (xs ys : List (List ℝ))
    (h : 16 ∣ xs.length) :
    let a := modulated F s ctl st xs
    let b := modulated F s (fun i => ctl (i + xs.length)) a.1 ys
    modulated F s ctl st (xs ++ ys) = (b.1, a.2 ++ b.2) := by
  obtain ⟨k, hk⟩ := h
  simp only [control_law]
  rw [perFrame_append]
  have e : (fun i => ctl ((i + xs.length) / 16 * 16))
      = (fun i => ctl (i / 16 * 16 + xs.length)) := by
    funext i
    congr 1
    rw [hk, Nat.add_mul_div_left _ _ (by decide)]
    ring
  rw [e]

/-- The blocks of one note, one after the other, under controls given from the start of the
note. -/
def play (F : Dsp C D) (s : ℝ) (ctl : ℕ → Ctl) (h : Holder C D) :
    List (List (List ℝ)) → Holder C D × List (List ℝ)
  | [] => (h, [])
  | b :: bs =>
    let r := h.process F s ctl b
    let t := play F s (fun i => ctl (i + b.length)) r.1 bs
    (t.1, r.2 ++ t.2)

/-- Channel `j` of a list of frames as a signal (silent after the end). -/
def signal (xs : List (List ℝ)) (j : ℕ) (n : ℕ) : ℝ := (xs.getD n []).getD j 0

lemma chans_length (c : C) (ds : List D) (xs : List ℝ) (h : ds.length = xs.length) :
    (chans F c ds xs).1.length = ds.length ∧ (chans F c ds xs).2.length = ds.length := by
  induction ds generalizing xs with
  | nil => cases xs <;> simp_all [chans]
  | cons d ds ih =>
    cases xs with
    | nil => simp at h
    | cons x xs =>
      have := ih xs (by simpa using h)
      simp [chans, this]

lemma chans_map (c : C) (d : ℕ → D) (x : ℕ → ℝ) (k : ℕ) :
    chans F c ((List.range k).map d) ((List.range k).map x)
      = ((List.range k).map (fun j => (F.run c (d j) (x j)).1),
        (List.range k).map (fun j => (F.run c (d j) (x j)).2)) := by
  have : ∀ l : List ℕ, chans F c (l.map d) (l.map x)
      = (l.map (fun j => (F.run c (d j) (x j)).1), l.map (fun j => (F.run c (d j) (x j)).2)) := by
    intro l
    induction l with
    | nil => rfl
    | cons a l ih => simp only [List.map_cons, chans, ih]
  exact this _

lemma list_eq_map_range (l : List ℝ) : l = (List.range l.length).map (fun j => l.getD j 0) := by
  apply List.ext_getElem
  · simp
  · intro i h1 h2
    simp [List.getD_eq_getElem?_getD, h1]

/-- The settled state of a filter with `k` channels after `n` frames of the signals `x`. -/
def at_ (F : Dsp C D) (p : Ctl) (k : ℕ) (x : ℕ → ℕ → ℝ) (n : ℕ) : St C D :=
  ⟨settled F p, (List.range k).map (fun j => mem F p (x j) n)⟩

lemma frame_at (hF : Lawful F) (s : ℝ) (p : Ctl) (k : ℕ) (x : ℕ → ℕ → ℝ) (n : ℕ) :
    frame F s p (at_ F p k x n) ((List.range k).map (fun j => x j n))
      = (at_ F p k x (n + 1), (List.range k).map (fun j => out F p (x j) n)) := by
  have e : F.adapt s p (settled F p) = settled F p := hF.stays s p F.c0
  simp only [frame, at_, e, chans_map]
  rfl

lemma compute_at (hF : Lawful F) (s : ℝ) (p : Ctl) (k : ℕ) (x : ℕ → ℕ → ℝ) (n : ℕ)
    (xs : List (List ℝ)) (h : ∀ i, i < xs.length →
      xs.getD i [] = (List.range k).map (fun j => x j (n + i))) :
    perFrame F s (fun _ => p) (at_ F p k x n) xs
      = (at_ F p k x (n + xs.length),
        (List.range xs.length).map (fun i => (List.range k).map
          (fun j => out F p (x j) (n + i)))) := by
  induction xs generalizing n with
  | nil => simp [perFrame]
  | cons y ys ih =>
    have hy : y = (List.range k).map (fun j => x j n) := by simpa using h 0 (by simp)
    simp only [perFrame]
    rw [hy, frame_at hF, ih (n + 1) (fun i hi => by
      have := h (i + 1) (by simpa using hi)
      simpa [Nat.add_assoc, Nat.add_comm 1 i] using this)]
    simp only [List.length_cons]
    rw [List.range_succ_eq_map]
    simp [Nat.add_assoc, Nat.add_comm 1, Function.comp_def]

lemma prepare_at (hF : Lawful F) (p : Ctl) (k : ℕ) (x : ℕ → ℕ → ℝ) :
    prepare F p k = at_ F p k x 0 := by
  have h1 : List.replicate k F.d0 = (List.range k).map (fun _ => F.d0) := by simp
  have h2 : List.replicate k (0 : ℝ) = (List.range k).map (fun _ => (0 : ℝ)) := by simp
  simp only [prepare, frame, cleared]
  rw [h1, h2, chans_map]
  simp only [hF.quiet]
  rfl

lemma play_const (hF : Lawful F) (s : ℝ) (p : Ctl) (k : ℕ) (x : ℕ → ℕ → ℝ) (n : ℕ)
    (bs : List (List (List ℝ))) (h : ∀ i, i < bs.flatten.length →
      bs.flatten.getD i [] = (List.range k).map (fun j => x j (n + i)))
    (st : Holder C D) (hst : st = ⟨at_ F p k x n, true⟩ ∨
      (n = 0 ∧ st.prepared = false ∧ st.st.ds.length = k)) :
    (play F s (fun _ => p) st bs).2
      = (List.range bs.flatten.length).map (fun i => (List.range k).map
          (fun j => out F p (x j) (n + i))) := by
  induction bs generalizing n st with
  | nil => simp [play]
  | cons b bs ih =>
    cases b with
    | nil =>
      simp only [play, Holder.process, List.flatten_cons, List.nil_append]
      exact ih n (by simpa using h) st hst
    | cons y ys =>
      have hb : ∀ i, i < (y :: ys).length →
          (y :: ys).getD i [] = (List.range k).map (fun j => x j (n + i)) := by
        intro i hi
        have := h i (by simp only [List.flatten_cons, List.length_append]; omega)
        rw [← this, List.flatten_cons, List.getD_eq_getElem?_getD, List.getD_eq_getElem?_getD,
          List.getElem?_append_left hi]
      have hstart : (if st.prepared then st.st else prepare F p st.st.ds.length)
          = at_ F p k x n := by
        rcases hst with rfl | ⟨rfl, h1, h2⟩
        · rfl
        · rw [h1, h2]; exact prepare_at hF p k x
      simp only [play, Holder.process]
      rw [hstart]
      simp only [control_law]
      rw [compute_at hF s p k x n (y :: ys) hb]
      rw [ih (n + (y :: ys).length) (fun i hi => by
        have := h ((y :: ys).length + i)
          (by simp only [List.flatten_cons, List.length_append]; omega)
        rw [List.flatten_cons, List.getD_eq_getElem?_getD,
          List.getElem?_append_right (by omega)] at this
        rw [List.getD_eq_getElem?_getD]
        rw [Nat.add_sub_cancel_left] at this
        simpa [Nat.add_assoc] using this) _ (Or.inl rfl)]
      rw [List.flatten_cons, List.length_append, List.range_add, List.map_append, List.map_map]
      simp [Function.comp_def, Nat.add_assoc]

/-- C98, constant controls: from the start of a note, each channel of the output is a function
of the controls and of that channel's own sound.  What the filter object did before (any
coefficients, any memory), the way the sound is cut into blocks, the smoothing setting and the
other channels have no influence. -/
theorem note_output (hF : Lawful F) (s : ℝ) (p : Ctl) (old : Holder C D)
    (blocks : List (List (List ℝ)))
    (hb : ∀ x ∈ blocks.flatten, x.length = old.st.ds.length) :
    (play F s (fun _ => p) old.setup blocks).2
      = (List.range blocks.flatten.length).map (fun i =>
          (List.range old.st.ds.length).map (fun j => out F p (signal blocks.flatten j) i)) := by
  have := play_const hF s p old.st.ds.length (fun j => signal blocks.flatten j) 0 blocks
    (fun i hi => by
      have hlen := hb (blocks.flatten[i]) (List.getElem_mem hi)
      rw [List.getD_eq_getElem?_getD, List.getElem?_eq_getElem hi, Option.getD_some]
      conv_lhs => rw [list_eq_map_range (blocks.flatten[i])]
      rw [hlen]
      simp only [signal, List.getD_eq_getElem?_getD, List.getElem?_eq_getElem hi,
        Option.getD_some, zero_add])
    old.setup (Or.inr ⟨rfl, rfl, rfl⟩)
  simpa using this

end

/-- Non-vacuity: a stereo one-pole low-pass with leftovers from an earlier note, fed three frames
in two blocks. -/
example (s : ℝ) (p : Ctl) (c : ℝ) (a b : Acc) :
    (play (onePole .lpf1p 48000) s (fun _ => p) (Holder.setup ⟨⟨c, [a, b]⟩, true⟩)
      [[[1, 0]], [[2, 5], [3, 7]]]).2
      = (List.range 3).map (fun i => (List.range 2).map
          (fun j => out (onePole .lpf1p 48000) p (signal [[1, 0], [2, 5], [3, 7]] j) i)) :=
  note_output (onePole_lawful .lpf1p 48000) s p ⟨⟨c, [a, b]⟩, true⟩ _ (by simp)

/-- C98 is violated for moving controls: the same sound under the same control curve comes out
differently when the block is cut after one frame, because the controls of frame 1 are then
looked at. -/
theorem cut_violated :
    ∃ (fs s : ℝ) (ctl : ℕ → Ctl) (h : Holder ℝ Acc) (xs ys : List (List ℝ)),
      0 < s ∧ s < 1 ∧
      (play (onePole .lpf1p fs) s ctl h.setup [xs ++ ys]).2
        ≠ (play (onePole .lpf1p fs) s ctl h.setup [xs, ys]).2 := by
  refine ⟨48000, 1 / 2, fun i => ⟨if i = 0 then 100 else 1000, 0, 0⟩,
    ⟨⟨0, [⟨0, 0⟩]⟩, false⟩, [[0]], [[1]], by norm_num, by norm_num, ?_⟩
  have c1 : clampHz 100 = 100 := clampHz_id (by norm_num) (by norm_num)
  have c2 : clampHz 1000 = 1000 := clampHz_id (by norm_num) (by norm_num)
  have hlt : exp (1 / 48000 * (0 - 2 * π * 1000)) < exp (1 / 48000 * (0 - 2 * π * 100)) := by
    apply exp_lt_exp.mpr; linarith [pi_pos]
  have h1 : exp (1 / 48000 * (0 - 2 * π * 100)) < 1 := by
    rw [exp_lt_one_iff]; linarith [pi_pos]
  have h2 := exp_pos (1 / 48000 * (0 - 2 * π * 1000))
  simp only [play, Holder.process, Holder.setup, modulated, modulatedFuel, compute, frame, chans,
    prepare, cleared, onePole, poleRun, poleTarget, mix, interval, List.cons_append,
    List.nil_append, List.length_cons, List.length_nil, List.take, List.drop, c1, c2,
    List.replicate, List.append_nil]
  simp only [if_true, if_false, Bool.false_eq_true, reduceIte, one_ne_zero, c1, c2,
    List.replicate, chans, List.length_cons, List.length_nil, zero_add]
  intro h
  simp only [List.cons.injEq, and_true, true_and] at h
  generalize exp (1 / 48000 * (0 - 2 * π * 1000)) = q at *
  generalize exp (1 / 48000 * (0 - 2 * π * 100)) = r at *
  norm_num [poleRun] at h
  nlinarith

end Verif.Filter
