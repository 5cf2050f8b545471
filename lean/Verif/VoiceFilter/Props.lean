import Verif.VoiceFilter.Model

/-!
# The cutoff law, the equalizer law, and the chain of filters of a voice

C126: a filter's cutoff follows key, velocity and modulation in cents, limited to 20 kHz; an
equalizer's frequency and gain follow velocity and modulation; the filters and equalizers of a
region act one after the other, from the first frame of the note, whatever the voice played
before and however the sound is cut into blocks.
-/

namespace Verif.VoiceFilter

open Verif.Filter

/-! ## The cutoff -/

lemma centsFactor_pos (c : ℝ) : 0 < centsFactor c := Real.rpow_pos_of_pos (by norm_num) _

lemma centsFactor_add (a b : ℝ) : centsFactor (a + b) = centsFactor a * centsFactor b := by
  unfold centsFactor
  rw [add_div, Real.rpow_add (by norm_num)]

lemma centsFactor_zero : centsFactor 0 = 1 := by simp [centsFactor]

/-- What an instrument asks for, in cents above the written cutoff, before modulation: a share of
`fil_random`, `fil_keytrack` for every key above the center, and `fil_veltrack` (with its
controllers) in proportion to velocity. -/
def cents (d : FilterDesc) (key : ℤ) (vel u : ℝ) : ℝ :=
  d.random * u + d.keytrack * (key - d.keycenter)
    + (d.veltrack + (d.veltrackCC.map (fun m => m.1 * m.2)).sum) * vel

/-- The frequency that is so many cents above the written cutoff. -/
noncomputable def asked (d : FilterDesc) (c : ℝ) : ℝ := d.cutoff * (2 : ℝ) ^ (c / 1200)

/-- The modulation in cents; a target that is not connected counts 0. -/
def Mods.cents (m : Mods) : ℝ := m.freq.getD 0

lemma foldl_sum (l : List (ℝ × ℝ)) (a : ℝ) :
    l.foldl (fun v m => v + m.1 * m.2) a = a + (l.map (fun m => m.1 * m.2)).sum := by
  induction l generalizing a with
  | nil => simp
  | cons x l ih => simp [ih, add_assoc]

lemma asked_nonneg {d : FilterDesc} (h : 0 ≤ d.cutoff) (c : ℝ) : 0 ≤ asked d c :=
  mul_nonneg h (Real.rpow_nonneg (by norm_num) _)

lemma baseCutoff_eq {d : FilterDesc} (h : 0 ≤ d.cutoff) (key : ℤ) (vel u : ℝ) :
    baseCutoff d key vel u = min (asked d (cents d key vel u)) 20000 := by
  have e : (if d.random ≠ 0 then d.cutoff * centsFactor (d.random * u) else d.cutoff)
      = d.cutoff * centsFactor (d.random * u) := by
    split_ifs with hr
    · rfl
    · push Not at hr
      rw [hr, zero_mul, centsFactor_zero, mul_one]
  have e2 : asked d (cents d key vel u)
      = d.cutoff * centsFactor (d.random * u)
        * centsFactor (d.keytrack * ((key - d.keycenter : ℤ) : ℝ))
        * centsFactor (d.veltrackCC.foldl (fun v m => v + m.1 * m.2) d.veltrack * vel) := by
    rw [foldl_sum]
    unfold asked cents
    have := centsFactor_add (d.random * u + d.keytrack * (key - d.keycenter))
      ((d.veltrack + (d.veltrackCC.map (fun m => m.1 * m.2)).sum) * vel)
    rw [centsFactor_add (d.random * u)] at this
    unfold centsFactor at this ⊢
    rw [this]
    push_cast
    ring
  unfold baseCutoff
  simp only [e]
  rw [← e2, clampCutoff, max_eq_left (asked_nonneg h _)]

lemma asked_add (d : FilterDesc) (a b : ℝ) : asked d (a + b) = asked d a * centsFactor b := by
  unfold asked
  rw [add_div, Real.rpow_add (by norm_num), centsFactor, mul_assoc]

/-- C126, the cutoff at every frame, exactly: what is asked for before modulation, limited to
20 kHz, then moved by the modulation, and limited to 20 kHz again. -/
theorem cutoff_exact {d : FilterDesc} (h : 0 ≤ d.cutoff) (key : ℤ) (vel u : ℝ) (m : Mods) :
    (filterCtl d key vel u m).cutoff
      = min (min (asked d (cents d key vel u)) 20000 * (2 : ℝ) ^ (m.cents / 1200)) 20000 := by
  have hb : 0 ≤ min (asked d (cents d key vel u)) 20000 :=
    le_min (asked_nonneg h _) (by norm_num)
  simp only [filterCtl]
  rw [baseCutoff_eq h]
  obtain ⟨mf, ms, mg⟩ := m
  cases mf with
  | none =>
    have h0 := asked_nonneg h (cents d key vel u)
    simp [cutoffAt, clampCutoff, Mods.cents, h0]
  | some c =>
    simp only [cutoffAt, clampCutoff, Mods.cents, Option.getD_some]
    rw [max_eq_left (mul_nonneg hb (centsFactor_pos c).le)]
    rfl

/-- C126: the cutoff stays from 0 to 20 kHz whatever the description and the modulation. -/
theorem cutoff_range (d : FilterDesc) (key : ℤ) (vel u : ℝ) (m : Mods) :
    0 ≤ (filterCtl d key vel u m).cutoff ∧ (filterCtl d key vel u m).cutoff ≤ 20000 := by
  simp only [filterCtl]
  cases m.freq <;> exact ⟨le_min (le_max_right _ _) (by norm_num), min_le_right _ _⟩

/-- C126, the law an instrument relies on: all the cents add up, and only the result is limited
to 20 kHz.  It holds when the cutoff before modulation is at most 20 kHz, and when the modulation
does not lower it (`_partial`: see `cutoff_law_violated` for the rest). -/
theorem cutoff_law_partial {d : FilterDesc} (h : 0 ≤ d.cutoff) (key : ℤ) (vel u : ℝ) (m : Mods)
    (hm : asked d (cents d key vel u) ≤ 20000 ∨ 0 ≤ m.cents) :
    (filterCtl d key vel u m).cutoff = min (asked d (cents d key vel u + m.cents)) 20000 := by
  rw [cutoff_exact h, asked_add]
  rcases hm with hm | hm
  · rw [min_eq_left hm]; rfl
  · have h1 : 1 ≤ (2 : ℝ) ^ (m.cents / 1200) :=
      Real.one_le_rpow (by norm_num) (by positivity)
    have h0 : 0 < (2 : ℝ) ^ (m.cents / 1200) := by linarith
    change _ = min (_ * (2 : ℝ) ^ (m.cents / 1200)) _
    by_cases ha : asked d (cents d key vel u) ≤ 20000
    · rw [min_eq_left ha]
    · push Not at ha
      rw [min_eq_right ha.le, min_eq_right (by nlinarith), min_eq_right (by nlinarith)]

/-- C126 is violated in every other case: when the cutoff before modulation passes 20 kHz and the
modulation lowers it, the filter is set lower than the cents say. -/
theorem cutoff_law_violated {d : FilterDesc} (h : 0 ≤ d.cutoff) (key : ℤ) (vel u : ℝ) (m : Mods)
    (ha : 20000 < asked d (cents d key vel u)) (hm : m.cents < 0) :
    (filterCtl d key vel u m).cutoff < min (asked d (cents d key vel u + m.cents)) 20000 := by
  have h1 : (2 : ℝ) ^ (m.cents / 1200) < 1 :=
    Real.rpow_lt_one_of_one_lt_of_neg (by norm_num) (by linarith)
  have h0 : 0 < (2 : ℝ) ^ (m.cents / 1200) := Real.rpow_pos_of_pos (by norm_num) _
  rw [cutoff_exact h, asked_add, min_eq_right ha.le]
  rw [min_eq_left (by nlinarith)]
  refine lt_min ?_ (by nlinarith)
  exact mul_lt_mul_of_pos_right ha h0

/-- A plain low-pass description for the examples: cutoff 12 kHz, 100 cents for every key. -/
noncomputable def tracked : FilterDesc where
  cutoff := 12000
  resonance := 0
  gain := 0
  keytrack := 100
  keycenter := 60
  veltrack := 0
  veltrackCC := []
  random := 0
  kind := ⟨_, _, onePole .lpf1p 48000⟩

/-- Non-vacuity of `cutoff_law_violated`, with numbers: an octave above the center the
instrument asks for 24 kHz; an envelope an octave down should give 12 kHz back, and gives
10 kHz. -/
example : (filterCtl tracked 72 1 0 ⟨some (-1200), none, none⟩).cutoff = 10000
    ∧ min (asked tracked (cents tracked 72 1 0 + -1200)) 20000 = 12000 := by
  have e : cents tracked 72 1 0 = 1200 := by norm_num [cents, tracked]
  constructor
  · rw [cutoff_exact (by norm_num [tracked]), e]
    norm_num [asked, tracked, Mods.cents, Real.rpow_neg]
  · rw [e]; norm_num [asked, tracked]

/-- Non-vacuity of `cutoff_law_partial`: an octave below the center, an octave up by modulation,
12 kHz. -/
example : (filterCtl tracked 48 1 0 ⟨some 1200, none, none⟩).cutoff = 12000 := by
  have e : cents tracked 48 1 0 = -1200 := by norm_num [cents, tracked]
  rw [cutoff_law_partial (by norm_num [tracked]) _ _ _ _ (Or.inr (by norm_num [Mods.cents])), e]
  norm_num [asked, tracked, Mods.cents]

/-- C126: with `fil_keytrack=100` the cutoff doubles with every octave played, as long as it
stays within 20 kHz. -/
theorem octave {d : FilterDesc} (h : 0 ≤ d.cutoff) (hk : d.keytrack = 100) (key : ℤ)
    (vel u : ℝ) (m : Mods) (hm : m.freq = none)
    (hlim : asked d (cents d (key + 12) vel u) ≤ 20000) :
    (filterCtl d (key + 12) vel u m).cutoff = 2 * (filterCtl d key vel u m).cutoff := by
  have hc : m.cents = 0 := by simp [Mods.cents, hm]
  have e : cents d (key + 12) vel u = cents d key vel u + 1200 := by
    unfold cents; rw [hk]; push_cast; ring
  have e2 : asked d (cents d key vel u + 1200) = 2 * asked d (cents d key vel u) := by
    rw [asked_add]
    have : centsFactor 1200 = 2 := by norm_num [centsFactor]
    rw [this]; ring
  have h0 := asked_nonneg h (cents d key vel u)
  rw [e, e2] at hlim
  rw [cutoff_exact h, cutoff_exact h, hc, e, e2]
  rw [min_eq_left hlim, min_eq_left (by linarith : asked d (cents d key vel u) ≤ 20000)]
  norm_num
  rw [min_eq_left hlim, min_eq_left (by linarith)]

example : (filterCtl tracked (54 + 12) 1 0 ⟨none, none, none⟩).cutoff
    = 2 * (filterCtl tracked 54 1 0 ⟨none, none, none⟩).cutoff := by
  refine octave (by norm_num [tracked]) rfl _ _ _ _ rfl ?_
  have e : cents tracked (54 + 12) 1 0 = 600 := by norm_num [cents, tracked]
  rw [e, asked]
  have h2 : (2 : ℝ) ^ ((600 : ℝ) / 1200) ≤ 5 / 3 := by
    have : (2 : ℝ) ^ ((600 : ℝ) / 1200) = Real.sqrt 2 := by
      rw [Real.sqrt_eq_rpow]; norm_num
    rw [this, Real.sqrt_le_left (by norm_num)]
    norm_num
  norm_num [tracked] at *
  linarith

/-! ## The equalizer -/

/-- C126, equalizers: frequency and gain move in proportion to velocity, everything moves by its
modulation; the frequency that is heard is limited to 1 Hz to 20 kHz. -/
theorem eq_law (d : EqDesc) (vel : ℝ) (m : Mods) :
    clampHz (eqCtl d vel m).cutoff
        = min 20000 (max 1 (d.frequency + d.vel2frequency * vel + m.freq.getD 0))
      ∧ (eqCtl d vel m).gain = d.gain + d.vel2gain * vel + m.gain.getD 0
      ∧ (eqCtl d vel m).q = d.bandwidth + m.shape.getD 0 := by
  obtain ⟨mf, ms, mg⟩ := m
  cases mf <;> cases ms <;> cases mg <;> simp [eqCtl, addAt, clampHz, mul_comm]

/-- C126: resonance and gain of a filter move by their modulation only. -/
theorem resonance_law (d : FilterDesc) (key : ℤ) (vel u : ℝ) (m : Mods) :
    (filterCtl d key vel u m).q = d.resonance + m.shape.getD 0
      ∧ (filterCtl d key vel u m).gain = d.gain + m.gain.getD 0 := by
  obtain ⟨mf, ms, mg⟩ := m
  cases ms <;> cases mg <;> simp [filterCtl, addAt]

example : (eqCtl ⟨1000, 1, 0, -500, 6, ⟨_, _, pink⟩⟩ (1 / 2) ⟨some 50, none, none⟩).cutoff
    = 800 := by norm_num [eqCtl, addAt]

/-! ## The chain -/

/-- A signal through filters with constant controls, one after the other, each starting
cleared. -/
def through (cs : List (Class × Ctl)) (x : ℕ → ℝ) : ℕ → ℝ :=
  cs.foldl (fun y c => out c.1.dsp c.2 y) x

lemma mem_causal {C D : Type} (F : Dsp C D) (p : Ctl) {x y : ℕ → ℝ} {n : ℕ}
    (h : ∀ i, i < n → x i = y i) : mem F p x n = mem F p y n := by
  induction n with
  | zero => rfl
  | succ n ih =>
    simp only [mem]
    rw [ih (fun i hi => h i (by omega)), h n (by omega)]

lemma out_causal {C D : Type} (F : Dsp C D) (p : Ctl) {x y : ℕ → ℝ} {n : ℕ}
    (h : ∀ i, i < n → x i = y i) : ∀ i, i < n → out F p x i = out F p y i := by
  intro i hi
  unfold out
  rw [mem_causal F p (fun k hk => h k (by omega)), h i hi]

lemma through_causal (cs : List (Class × Ctl)) {x y : ℕ → ℝ} {n : ℕ}
    (h : ∀ i, i < n → x i = y i) : ∀ i, i < n → through cs x i = through cs y i := by
  induction cs generalizing x y with
  | nil => exact h
  | cons c cs ih => exact ih (out_causal c.1.dsp c.2 h)

/-- The blocks that leave one place. -/
def blocksOut (s : ℝ) : Slot → List (List (List ℝ)) → List (List (List ℝ))
  | _, [] => []
  | w, b :: bs => (w.process s b).2 :: blocksOut s (w.process s b).1 bs

lemma chainPlay_cons (s : ℝ) (w : Slot) (ws : List Slot) (bs : List (List (List ℝ))) :
    (chainPlay s (w :: ws) bs).2 = (chainPlay s ws (blocksOut s w bs)).2 := by
  induction bs generalizing w ws with
  | nil => rfl
  | cons b bs ih => simp only [chainPlay, chainBlock, blocksOut, ih]

lemma chainPlay_nil (s : ℝ) (bs : List (List (List ℝ))) :
    (chainPlay s [] bs).2 = bs.flatten := by
  induction bs with
  | nil => rfl
  | cons b bs ih => simp only [chainPlay, chainBlock, ih, List.flatten_cons]

lemma blocksOut_flatten (s : ℝ) (w : Slot) (bs : List (List (List ℝ))) :
    (blocksOut s w bs).flatten = (play w.kind.dsp s w.ctl w.holder bs).2 := by
  induction bs generalizing w with
  | nil => rfl
  | cons b bs ih => simp only [blocksOut, play, List.flatten_cons, ih]; rfl

/-- A place as a note finds it, under constant controls. -/
def Fresh (k : ℕ) (w : Slot) (p : Ctl) : Prop :=
  Lawful w.kind.dsp ∧ (∃ old : Holder w.kind.C w.kind.D, w.holder = old.setup)
    ∧ w.holder.st.ds.length = k ∧ w.ctl = fun _ => p

lemma chain_const (s : ℝ) (k : ℕ) (cs : List (Slot × Ctl))
    (hf : ∀ c ∈ cs, Fresh k c.1 c.2) (bs : List (List (List ℝ)))
    (hb : ∀ x ∈ bs.flatten, x.length = k) :
    (chainPlay s (cs.map Prod.fst) bs).2
      = (List.range bs.flatten.length).map (fun i => (List.range k).map
          (fun j => through (cs.map (fun c => (c.1.kind, c.2))) (signal bs.flatten j) i)) := by
  induction cs generalizing bs with
  | nil =>
    simp only [List.map_nil, chainPlay_nil, through, List.foldl_nil]
    apply List.ext_getElem
    · simp
    · intro i h1 h2
      have hl := hb _ (List.getElem_mem h1)
      rw [List.getElem_map, List.getElem_range, list_eq_map_range (bs.flatten[i]), hl]
      simp only [signal, List.getD_eq_getElem?_getD, List.getElem?_eq_getElem h1,
        Option.getD_some]
  | cons c cs ih =>
    obtain ⟨w, p⟩ := c
    obtain ⟨hlaw, ⟨old, hold⟩, hlen, hctl⟩ := hf (w, p) List.mem_cons_self
    simp only at hlaw hold hlen hctl
    simp only [List.map_cons]
    rw [chainPlay_cons]
    have hlen' : old.st.ds.length = k := by rw [← hlen, hold]; rfl
    have hfl : (blocksOut s w bs).flatten
        = (List.range bs.flatten.length).map (fun i => (List.range k).map
            (fun j => out w.kind.dsp p (signal bs.flatten j) i)) := by
      rw [blocksOut_flatten, hold, hctl,
        note_output hlaw s p old bs (by rw [hlen']; exact hb), hlen']
    have hn : (blocksOut s w bs).flatten.length = bs.flatten.length := by rw [hfl]; simp
    rw [ih (fun c hc => hf c (List.mem_cons_of_mem _ hc)) _ (by
      rw [hfl]
      intro x hx
      obtain ⟨i, _, rfl⟩ := List.mem_map.mp hx
      simp), hn]
    apply List.map_congr_left
    intro i hi
    apply List.map_congr_left
    intro j hj
    have hj' : j < k := List.mem_range.mp hj
    change _ = through _ (out w.kind.dsp p (signal bs.flatten j)) i
    apply through_causal (n := bs.flatten.length) _ _ i (List.mem_range.mp hi)
    intro i' hi'
    rw [hfl]
    simp only [signal, List.getD_eq_getElem?_getD]
    rw [List.getElem?_map, List.getElem?_range hi', Option.map_some, Option.getD_some,
      List.getElem?_map, List.getElem?_range hj', Option.map_some, Option.getD_some]

/-- The filters of a note and their controls when modulation does not move. -/
noncomputable def settings (key : ℤ) (vel : ℝ) (fs : List FilterUse) (es : List EqUse) :
    List (Class × Ctl) :=
  fs.map (fun f => (f.desc.kind, filterCtl f.desc key vel f.draw (f.mods 0)))
    ++ es.map (fun e => (e.desc.kind, eqCtl e.desc vel (e.mods 0)))

/-- C126, the chain: from the start of a note every channel goes through the region's filters and
then its equalizers, in order, each under the controls of the note.  What the filter objects of
the voice did before, the cut into blocks, the smoothing and the other channel have no
influence.  For modulation that does not move (moving modulation: C98, `cut_violated`). -/
theorem chain_output (s : ℝ) (k : ℕ) (key : ℤ) (vel : ℝ) (fs : List FilterUse)
    (es : List EqUse) (blocks : List (List (List ℝ)))
    (hf : ∀ f ∈ fs, Lawful f.desc.kind.dsp ∧ f.old.st.ds.length = k ∧ ∀ i, f.mods i = f.mods 0)
    (he : ∀ e ∈ es, Lawful e.desc.kind.dsp ∧ e.old.st.ds.length = k ∧ ∀ i, e.mods i = e.mods 0)
    (hb : ∀ x ∈ blocks.flatten, x.length = k) :
    (chainPlay s (startVoice key vel fs es) blocks).2
      = (List.range blocks.flatten.length).map (fun i => (List.range k).map
          (fun j => through (settings key vel fs es) (signal blocks.flatten j) i)) := by
  let cs : List (Slot × Ctl) :=
    fs.map (fun f => (Slot.setup f.desc.kind f.old
        (fun i => filterCtl f.desc key vel f.draw (f.mods i)),
        filterCtl f.desc key vel f.draw (f.mods 0)))
      ++ es.map (fun e => (Slot.setup e.desc.kind e.old
        (fun i => eqCtl e.desc vel (e.mods i)), eqCtl e.desc vel (e.mods 0)))
  have h1 : startVoice key vel fs es = cs.map Prod.fst := by
    simp [cs, startVoice, Function.comp_def]
  have h2 : settings key vel fs es = cs.map (fun c => (c.1.kind, c.2)) := by
    simp [cs, settings, Function.comp_def, Slot.setup]
  rw [h1, h2]
  refine chain_const s k cs ?_ blocks hb
  intro c hc
  rcases List.mem_append.mp hc with hc | hc
  · obtain ⟨f, hm, rfl⟩ := List.mem_map.mp hc
    obtain ⟨a, b, m⟩ := hf f hm
    exact ⟨a, ⟨f.old, rfl⟩, b, by funext i; simp only [Slot.setup, m i]⟩
  · obtain ⟨f, hm, rfl⟩ := List.mem_map.mp hc
    obtain ⟨a, b, m⟩ := he f hm
    exact ⟨a, ⟨f.old, rfl⟩, b, by funext i; simp only [Slot.setup, m i]⟩

/-- Non-vacuity: a tracked low-pass with leftovers of an earlier note, then a pink equalizer
stand-in, three stereo frames in two blocks. -/
example (s c : ℝ) (a b : Acc) (d e : PinkMem) :
    (chainPlay s (startVoice 72 1
        [⟨tracked, ⟨⟨c, [a, b]⟩, true⟩, 0, fun _ => ⟨none, none, none⟩⟩]
        [⟨⟨1000, 1, 0, 0, 6, ⟨_, _, pink⟩⟩, ⟨⟨(), [d, e]⟩, true⟩, fun _ => ⟨none, none, none⟩⟩])
      [[[1, 0]], [[2, 5], [3, 7]]]).2
      = (List.range 3).map (fun i => (List.range 2).map (fun j =>
          out pink ⟨1000, 1, 6⟩ (out (onePole .lpf1p 48000) ⟨20000, 0, 0⟩
            (signal [[1, 0], [2, 5], [3, 7]] j)) i)) := by
  have h := chain_output s 2 72 1
    [⟨tracked, ⟨⟨c, [a, b]⟩, true⟩, 0, fun _ => ⟨none, none, none⟩⟩]
    [⟨⟨1000, 1, 0, 0, 6, ⟨_, _, pink⟩⟩, ⟨⟨(), [d, e]⟩, true⟩, fun _ => ⟨none, none, none⟩⟩]
    [[[1, 0]], [[2, 5], [3, 7]]]
    (by simp [tracked, onePole_lawful]) (by simp [pink_lawful]) (by simp)
  rw [h]
  have hc : filterCtl tracked 72 1 0 ⟨none, none, none⟩ = ⟨20000, 0, 0⟩ := by
    have e1 : (filterCtl tracked 72 1 0 ⟨none, none, none⟩).cutoff = 20000 := by
      have e : cents tracked 72 1 0 = 1200 := by norm_num [cents, tracked]
      rw [cutoff_exact (by norm_num [tracked]), e]
      norm_num [asked, tracked, Mods.cents]
    have e2 := resonance_law tracked 72 1 0 ⟨none, none, none⟩
    rcases hx : filterCtl tracked 72 1 0 ⟨none, none, none⟩ with ⟨x, y, z⟩
    rw [hx] at e1 e2
    simp only [tracked, Option.getD_none, add_zero] at e1 e2
    rw [e1, e2.1, e2.2]
  have he : eqCtl ⟨1000, 1, 0, 0, 6, ⟨_, _, pink⟩⟩ 1 ⟨none, none, none⟩ = ⟨1000, 1, 6⟩ := by
    simp [eqCtl, addAt]
  simp only [settings, List.map_cons, List.map_nil, hc, he]
  rfl

end Verif.VoiceFilter
