import Verif.FlexEG.Frame
import Verif.Curve.Props
import Mathlib.Algebra.Order.Floor.Semiring
import Mathlib.Tactic.Ring

/-!
C36: flexible envelopes follow their points.
-/
namespace Verif.FlexEG

/-! ### Specification -/

/-- A point: time to reach it (seconds), its level, the shape of the way to it. -/
structure Pt where
  time : ℚ
  level : ℚ
  curve : Curve.Points

/-- Number of frames to a point: its time divided by the sample period `h`, rounded up. -/
def frames (h : ℚ) (p : Pt) : Nat := ⌈p.time / h⌉₊

/-- Level of frame `k` on the way from level `src` to the point. -/
def ramp (h : ℚ) (p : Pt) (src : ℚ) (k : Nat) : ℚ :=
  src + (Curve.evalNormalized p.curve ((k + 1 : Nat) * h / p.time)).getD 0 * (p.level - src)

/-- Frame `k` of an envelope that visits the points in turn from level `src`, stays at point `s` if there is one, and is 0
after the last point. -/
def wave (h : ℚ) : List Pt → Nat → ℚ → Nat → ℚ
  | [], _, _, _ => 0
  | p :: _, 0, src, k => if k < frames h p then ramp h p src k else p.level
  | p :: ps, s + 1, src, k => if k < frames h p then ramp h p src k else wave h ps s p.level (k - frames h p)

/-- Visits all of the points. -/
def visit (h : ℚ) (pts : List Pt) (src : ℚ) (k : Nat) : ℚ := wave h pts pts.length src k

/-- The level just before frame `k`. -/
def before (f : Nat → ℚ) : Nat → ℚ
  | 0 => 0
  | k + 1 => f k

/-- Frame `k` of an envelope that is `f` while the key is held, with the release at frame `r`, if there is one: from there the
points after the sustain point `s` are visited from the level reached. -/
def withRelease (h : ℚ) (pts : List Pt) (s : Nat) (f : Nat → ℚ) : Option Nat → Nat → ℚ
  | none, k => f k
  | some r, k => if k < r then f k else visit h (pts.drop (s + 1)) (before f r) (k - r)

/-- What is asked of the envelope. -/
inductive Op where
  | render (n : Nat)
  | release (delay : Nat)

/-- When the release is, if one is asked for after `K` frames: `delay` frames later; once the release took place others change
nothing. -/
def ask (r : Option Nat) (K delay : Nat) : Option Nat := match r with
  | some x => if x < K then some x else some (K + delay)
  | none => some (K + delay)

/-- The frames of a history, for an envelope that is `f` while the key is held: `D` frames of delay are left, `K` frames were
rendered since, `r` is the frame of the release. -/
def expected (h : ℚ) (pts : List Pt) (s : Nat) (f : Nat → ℚ) : List Op → Nat → Nat → Option Nat → List ℚ
  | [], _, _, _ => []
  | .render n :: ops, D, K, r =>
    (List.range n).map (fun k => if k < D then 0 else withRelease h pts s f r (K + (k - D)))
      ++ expected h pts s f ops (D - n) (K + (n - D)) r
  | .release delay :: ops, D, K, r => expected h pts s f ops D K (ask r K delay)

/-- Delay, rendered frames and frame of the release after a history. -/
def track : List Op → Nat → Nat → Option Nat → Nat × Nat × Option Nat
  | [], D, K, r => (D, K, r)
  | .render n :: ops, D, K, r => track ops (D - n) (K + (n - D)) r
  | .release delay :: ops, D, K, r => track ops D K (ask r K delay)

/-- Frames to visit points. -/
def total (h : ℚ) (pts : List Pt) : Nat := (pts.map (frames h)).sum

/-- The model run over a history. -/
def run (d : Desc) (look : Look) : List Op → Env → Option (List ℚ × Env)
  | [], e => some ([], e)
  | .render n :: ops, e => (process d look e n).bind (fun r => (run d look ops r.2).map (fun q => (r.1 ++ q.1, q.2)))
  | .release delay :: ops, e => run d look ops (release e delay)

/-! ### Lemmas -/

theorem evalCC7_ge (c : Curve.Points) (x : ℚ) (hx : 127 ≤ x) : Curve.evalCC7 c x = some (c 127) := by
  have : Curve.evalCC7 c x = Curve.evalCC7 c 127 := by
    have h1 : Curve.clamp x 0 127 = 127 := by unfold Curve.clamp; rw [min_eq_right hx]; norm_num
    have h2 : Curve.clamp (127 : ℚ) 0 127 = 127 := Curve.clamp_id 127 (by norm_num) (le_refl _)
    unfold Curve.evalCC7
    rw [h1, h2]
  rw [this, Curve.eval_at c 127 127 (by norm_num) (by norm_num) (le_refl _) (le_refl _)]
  norm_num

theorem shape_done (c : Curve.Points) (hc : c 127 = 1) (t T : ℚ) (hT : 0 ≤ T) (h : T ≤ t) : shape c t T = 1 := by
  unfold shape
  split
  · rw [evalCC7_ge c 127 (le_refl _), hc]; rfl
  · rename_i hT0
    have hT' : 0 < T := lt_of_le_of_ne hT (Ne.symm hT0)
    have : 1 ≤ t * (1 / T) := by
      rw [mul_one_div, le_div_iff₀ hT']
      linarith
    unfold Curve.evalNormalized
    rw [evalCC7_ge c _ (by linarith), hc]
    rfl

theorem lt_frames (h : ℚ) (hh : 0 < h) (p : Pt) (j : Nat) : j < frames h p ↔ (j : ℚ) * h < p.time := by
  unfold frames
  rw [Nat.lt_ceil, lt_div_iff₀ hh]

/-- The envelope is at frame `j` of the way to point `i` from level `src`. -/
structure At (h : ℚ) (d : Desc) (pts : List Pt) (e : Env) (i : Nat) (src : ℚ) (j : Nat) (p : Pt) : Prop where
  get : pts[i]? = some p
  stage : e.stage = i
  source : e.source = src
  target : e.target = p.level
  stageTime : e.stageTime = p.time
  sustained : e.sustained = decide (i = d.sustain)
  curve : e.curve = p.curve
  time : e.time = j * h
  level : e.level = (if j = 0 then src else src + shape p.curve (j * h) p.time * (p.level - src))

/-- What the model is given: the points with their fixed times and levels. -/
structure Given (h : ℚ) (d : Desc) (look : Look) (pts : List Pt) : Prop where
  pos : 0 < h
  curves : d.curves = pts.map Pt.curve
  look : ∀ i p, pts[i]? = some p → look i = (p.time, p.level)
  times : ∀ p ∈ pts, 0 ≤ p.time
  last : ∀ p ∈ pts, p.curve 127 = 1

/-- Index of the sustain point among the points from `i`. -/
def mark (d : Desc) (pts : List Pt) (i : Nat) : Nat := if i ≤ d.sustain then d.sustain - i else pts.length - i

/-- The number of frames left to the end. -/
def rem (h : ℚ) (pts : List Pt) (i j : Nat) (p : Pt) : Nat := (frames h p - j) + total h (pts.drop (i + 1))

/-- The frames to come at frame `j` of the way to point `i`. -/
def W (h : ℚ) (d : Desc) (pts : List Pt) (i : Nat) (src : ℚ) (j k : Nat) : ℚ :=
  wave h (pts.drop i) (mark d pts i) src (j + k)

section
variable {h : ℚ} {d : Desc} {look : Look} {pts : List Pt}

theorem Given.length (g : Given h d look pts) : d.curves.length = pts.length := by rw [g.curves]; simp

theorem advance_at (g : Given h d look pts) (e : Env) (i : Nat) (p : Pt) (hp : pts[i]? = some p) :
    At h d pts (advance d look e i).1 i e.level 0 p ∧ (advance d look e i).1.level = e.level := by
  have hc : d.curves[i]? = some p.curve := by rw [g.curves, List.getElem?_map, hp]; rfl
  have hi := (List.getElem?_eq_some_iff.mp hp).1
  have hl := g.length
  have hlook := g.look i p hp
  unfold advance
  rw [hc]
  dsimp only
  unfold update
  rw [if_neg (by dsimp only; omega)]
  exact ⟨⟨hp, rfl, rfl, by simp [hlook], by simp [hlook], rfl, rfl, by simp, by simp⟩, rfl⟩

theorem drop_cons {i : Nat} {p : Pt} (hp : pts[i]? = some p) : pts.drop i = p :: pts.drop (i + 1) := by
  obtain ⟨h1, h2⟩ := List.getElem?_eq_some_iff.mp hp
  rw [List.drop_eq_getElem_cons h1, h2]

/-- On the way to a point. -/
theorem W_ramp {i : Nat} {p : Pt} (hp : pts[i]? = some p) (src : ℚ) (j k : Nat) (hk : j + k < frames h p) :
    W h d pts i src j k = ramp h p src (j + k) := by
  unfold W
  rw [drop_cons hp]
  cases mark d pts i <;> simp [wave, hk]

/-- At the sustain point. -/
theorem W_sustain {i : Nat} {p : Pt} (hp : pts[i]? = some p) (hi : i = d.sustain) (src : ℚ) (j k : Nat)
    (hk : frames h p ≤ j + k) : W h d pts i src j k = p.level := by
  unfold W
  have : mark d pts i = 0 := by unfold mark; rw [if_pos (by omega)]; omega
  rw [drop_cons hp, this]
  simp [wave, Nat.not_lt.mpr hk]

/-- To the next point. -/
theorem W_next {i : Nat} {p : Pt} (hp : pts[i]? = some p) (hi : i ≠ d.sustain) (src : ℚ) (j k : Nat)
    (hj : j = frames h p) : W h d pts i src j k = W h d pts (i + 1) p.level 0 k := by
  have hlt := (List.getElem?_eq_some_iff.mp hp).1
  unfold W
  have : mark d pts i = mark d pts (i + 1) + 1 := by unfold mark; split <;> split <;> omega
  rw [drop_cons hp, this]
  simp [wave, hj]

theorem rem_next {i : Nat} {p p' : Pt} (hp' : pts[i + 1]? = some p') {j : Nat} (hj : j = frames h p) :
    rem h pts (i + 1) 0 p' = rem h pts i j p := by
  unfold rem total
  rw [drop_cons hp', hj]
  simp

theorem W_end (i : Nat) (hi : pts.length ≤ i) (src : ℚ) (j k : Nat) : W h d pts i src j k = 0 := by
  unfold W
  rw [List.drop_eq_nil_of_le hi]
  simp [wave]

/-- The level at the end of the way is that of the point. -/
theorem level_done (g : Given h d look pts) {e : Env} {i : Nat} {src : ℚ} {j : Nat} {p : Pt} (a : At h d pts e i src j p)
    (hj : p.time ≤ j * h) : (complete e).level = p.level := by
  have hmem := List.mem_of_getElem? a.get
  have ht := g.times p hmem
  have hl := g.last p hmem
  unfold complete
  split
  · exact a.target
  · rename_i hne
    rw [a.stageTime] at hne
    rw [a.level]
    have hj0 : j ≠ 0 := by
      rintro rfl
      simp at hj
      exact hne (le_antisymm hj ht)
    rw [if_neg hj0, shape_done _ hl _ _ ht hj]
    ring

/-- The transitions through completed stages keep the frames to come. -/
theorem skip_spec (g : Given h d look pts) (n : Nat) : ∀ (e : Env) (i : Nat) (src : ℚ) (j : Nat) (p : Pt),
    pts.length - i = n → At h d pts e i src j p → e.freeRunning = false → (i = d.sustain ∨ j ≤ frames h p) →
    ((skip d look e).2 = true ∧ ∃ i' src' j' p', At h d pts (skip d look e).1 i' src' j' p' ∧ i ≤ i' ∧
      (i ≤ d.sustain → i' ≤ d.sustain) ∧ (i' = d.sustain ∨ j' < frames h p') ∧
      rem h pts i' j' p' = rem h pts i j p ∧ ∀ k, W h d pts i' src' j' k = W h d pts i src j k) ∨
    ((skip d look e).2 = false ∧ ∀ k, W h d pts i src j k = 0 ∧ (i ≤ d.sustain → pts.length ≤ d.sustain)) := by
  induction n using Nat.strongRecOn with
  | ind n ih =>
    intro e i src j p hn a hf hj
    have hlt := (List.getElem?_eq_some_iff.mp a.get).1
    have hlf := lt_frames h g.pos p j
    rw [skip]
    by_cases hi : i = d.sustain
    · rw [if_neg (by rw [a.sustained, hf]; simp [hi])]
      exact Or.inl ⟨rfl, i, src, j, p, a, le_refl _, id, Or.inl hi, rfl, fun _ => rfl⟩
    by_cases hjf : j < frames h p
    · rw [if_neg (by rw [a.time, a.stageTime]; exact fun hc => absurd (hlf.mp hjf) (not_lt.mpr hc.2))]
      exact Or.inl ⟨rfl, i, src, j, p, a, le_refl _, id, Or.inr hjf, rfl, fun _ => rfl⟩
    · have htime : p.time ≤ j * h := by
        by_contra hc
        exact hjf (hlf.mpr (lt_of_not_ge hc))
      have hjeq : j = frames h p := by rcases hj with h' | h'; exact absurd h' hi; omega
      rw [if_pos ⟨Or.inl (by rw [a.sustained]; simp [hi]), by rw [a.time, a.stageTime]; exact htime⟩]
      have hlev := level_done g a htime
      have hstage : e.stage = i := a.stage
      have hadv := advance_true d look (complete e) (e.stage + 1)
      rw [g.length, hstage] at hadv
      rw [hstage]
      by_cases hnext : i + 1 < pts.length
      · rw [dif_pos (hadv.mpr hnext)]
        have hp' := List.getElem?_eq_getElem hnext
        obtain ⟨a', _⟩ := advance_at g (complete e) (i + 1) _ hp'
        rw [hlev] at a'
        have hf' : (advance d look (complete e) (i + 1)).1.freeRunning = false := by
          rw [(advance_same d look (complete e) (i + 1)).free, (complete_same e).free, hf]
        rcases ih (pts.length - (i + 1)) (by omega) _ _ _ _ _ rfl a' hf' (Or.inr (Nat.zero_le _)) with
          ⟨h1, i', src', j', p', b1, b2, b3, b4, b6, b5⟩ | ⟨h1, h2⟩
        · refine Or.inl ⟨h1, i', src', j', p', b1, by omega, fun hs => b3 (by omega), b4, b6.trans (rem_next hp' hjeq), fun k => ?_⟩
          rw [b5, W_next a.get hi src j k hjeq]
        · refine Or.inr ⟨h1, fun k => ⟨?_, fun hs => (h2 k).2 (by omega)⟩⟩
          rw [W_next a.get hi src j k hjeq, (h2 k).1]
      · rw [dif_neg (fun hc => hnext (hadv.mp hc))]
        refine Or.inr ⟨rfl, fun k => ⟨?_, fun hs => by omega⟩⟩
        rw [W_next a.get hi src j k hjeq, W_end _ (by omega)]

/-- One frame. -/
theorem tick_spec (g : Given h d look pts) {e : Env} {i : Nat} {src : ℚ} {j : Nat} {p : Pt} (a : At h d pts e i src j p)
    (hper : e.period = h) (hj : i = d.sustain ∨ j < frames h p) :
    (tick e).level = W h d pts i src j 0 ∧ At h d pts (tick e) i src (j + 1) p ∧
    ∀ k, W h d pts i src (j + 1) k = W h d pts i src j (k + 1) := by
  have hmem := List.mem_of_getElem? a.get
  have htime : (tick e).time = (j + 1 : Nat) * h := by
    unfold tick
    rw [a.time, hper]
    push_cast
    ring
  have hlevel : (tick e).level = src + shape p.curve ((j + 1 : Nat) * h) p.time * (p.level - src) := by
    unfold tick
    dsimp only
    rw [a.time, hper, a.source, a.curve, a.stageTime, a.target]
    push_cast
    ring_nf
  refine ⟨?_, ⟨a.get, a.stage, a.source, a.target, a.stageTime, a.sustained, a.curve, htime, by rw [if_neg (by omega)]; exact hlevel⟩,
    fun k => ?_⟩
  · rw [hlevel]
    by_cases hjf : j < frames h p
    · rw [W_ramp a.get src j 0 (by omega)]
      have htp : 0 < p.time := by
        have h1 := (lt_frames h g.pos p j).mp hjf
        have h2 : (0 : ℚ) ≤ j * h := mul_nonneg (by exact_mod_cast Nat.zero_le j) g.pos.le
        linarith
      unfold ramp shape
      rw [if_neg htp.ne', Nat.add_zero, mul_one_div]
    · have hi : i = d.sustain := by rcases hj with h' | h'; exact h'; exact absurd h' hjf
      have ht : p.time ≤ j * h := by
        by_contra hc
        exact hjf ((lt_frames h g.pos p j).mpr (lt_of_not_ge hc))
      have hle : p.time ≤ (j + 1 : Nat) * h := by
        push_cast
        have := g.pos
        linarith
      rw [shape_done _ (g.last p hmem) _ _ (g.times p hmem) hle, W_sustain a.get hi src j 0 (by omega)]
      ring
  · unfold W
    rw [show j + 1 + k = j + (k + 1) by omega]

/-- Where a history has led: `K` frames rendered, `f` is the envelope while held, the release is at frame `r`. -/
inductive Pos (h : ℚ) (d : Desc) (pts : List Pt) (f : Nat → ℚ) (e : Env) (K : Nat) (r : Option Nat) : Prop where
  | held (i : Nat) (src : ℚ) (j : Nat) (p : Pt) (a : At h d pts e i src j p) (hi : i ≤ d.sustain)
      (hj : i = d.sustain ∨ j ≤ frames h p) (hr : e.released = false) (hu : e.untilRelease = r.map (· - K))
      (hK : ∀ x, r = some x → K ≤ x) (hw : ∀ k, W h d pts i src j k = f (K + k)) (hl : e.level = before f K)
      (hrem : pts.length ≤ d.sustain → rem h pts i j p + K = total h pts)
  | stay (v : ℚ) (hstage : e.stage = d.sustain) (hlt : d.sustain < pts.length) (hsus : e.sustained = true) (hsrc : e.source = v)
      (htgt : e.target = v) (hlev : e.level = v) (hr : e.released = false) (hu : e.untilRelease = r.map (· - K))
      (hK : ∀ x, r = some x → K ≤ x) (hw : ∀ k, f k = v) (hK0 : 0 < K)
  | left (i : Nat) (src : ℚ) (j : Nat) (p : Pt) (x : Nat) (a : At h d pts e i src j p) (hi : d.sustain < i)
      (hj : j ≤ frames h p) (hr : e.released = true) (hx : r = some x) (hxK : x < K)
      (hw : ∀ k, W h d pts i src j k = withRelease h pts d.sustain f r (K + k))
      (hl : e.level = withRelease h pts d.sustain f r (K - 1))
      (hrem : rem h pts i j p + (K - x) = total h (pts.drop (d.sustain + 1)))
  | over (hs : pts.length ≤ e.stage) (hn : ∀ x, r = some x → K ≤ x → pts.length ≤ d.sustain ∧ ∀ k, f (K + k) = 0)
      (hn' : r = none → pts.length ≤ d.sustain ∧ ∀ k, f (K + k) = 0)
      (hz : ∀ k, withRelease h pts d.sustain f r (K + k) = 0)

theorem visit_W (src : ℚ) (k : Nat) (i : Nat) (hi : d.sustain < i) :
    W h d pts i src 0 k = visit h (pts.drop i) src k := by
  unfold W visit mark
  rw [if_neg (by omega), List.length_drop, Nat.zero_add]

/-- The fast-forward of a release: the points after the sustain point are visited from the present level. -/
theorem forward_spec (g : Given h d look pts) (n : Nat) : ∀ (e : Env), d.sustain + 1 - e.stage = n → e.stage ≤ d.sustain →
    (d.sustain + 1 < pts.length → ∃ p, (forward d look e).2 = true ∧ At h d pts (forward d look e).1 (d.sustain + 1) e.level 0 p) ∧
    (¬ d.sustain + 1 < pts.length → (forward d look e).2 = false) := by
  induction n using Nat.strongRecOn with
  | ind n ih =>
    intro e hn hs
    have hadv := advance_true d look e (e.stage + 1)
    rw [g.length] at hadv
    have hst := advance_stage d look e (e.stage + 1)
    rw [forward, if_pos hs]
    by_cases hlt : e.stage + 1 < pts.length
    · rw [dif_pos (hadv.mpr hlt)]
      obtain ⟨a, hl⟩ := advance_at g e (e.stage + 1) _ (List.getElem?_eq_getElem hlt)
      by_cases hend : e.stage = d.sustain
      · rw [forward_id d look _ (by rw [hst]; omega)]
        generalize hst' : e.stage + 1 = m at *
        have : m = d.sustain + 1 := by omega
        subst this
        exact ⟨fun _ => ⟨_, rfl, a⟩, fun hc => absurd hlt hc⟩
      · have := ih (d.sustain + 1 - (e.stage + 1)) (by omega) (advance d look e (e.stage + 1)).1 (by rw [hst]) (by rw [hst]; omega)
        rw [hl] at this
        exact this
    · rw [dif_neg (fun hc => hlt (hadv.mp hc))]
      exact ⟨fun hc => by omega, fun _ => rfl⟩

theorem rel_before {f : Nat → ℚ} {r : Option Nat} {K : Nat} (hr : ∀ x, r = some x → K < x) :
    withRelease h pts d.sustain f r K = f K := by
  cases r with
  | none => rfl
  | some x => simp only [withRelease]; rw [if_pos (hr x rfl)]

theorem rel_zero {f : Nat → ℚ} {r : Option Nat} {K : Nat} (hs : pts.length ≤ d.sustain) (hf : ∀ k, f (K + k) = 0) (k : Nat) :
    withRelease h pts d.sustain f r (K + k) = 0 := by
  cases r with
  | none => exact hf k
  | some x =>
    simp only [withRelease]
    split
    · exact hf k
    · rw [List.drop_eq_nil_of_le (by omega)]; rfl

/-- The rest of a turn before the frame, once a release is dealt with. -/
theorem finish_prepare (g : Given h d look pts) {f : Nat → ℚ} {K : Nat} {r : Option Nat} {e0 e : Env} {i : Nat} {src : ℚ} {j : Nat}
    {p : Pt} (a : At h d pts e i src j p) (hper : e.period = h) (hf : e.freeRunning = false)
    (hj : i = d.sustain ∨ j ≤ frames h p) (hp : prepare d look e0 = skip d look e)
    (hphase : (i ≤ d.sustain ∧ e.released = false ∧ e.untilRelease = r.map (· - K) ∧ (∀ x, r = some x → K < x) ∧
        (∀ k, W h d pts i src j k = f (K + k)) ∧ (pts.length ≤ d.sustain → rem h pts i j p + K = total h pts)) ∨
      (d.sustain < i ∧ e.released = true ∧
        (∃ x, r = some x ∧ x ≤ K ∧ rem h pts i j p + (K - x) = total h (pts.drop (d.sustain + 1))) ∧
        ∀ k, W h d pts i src j k = withRelease h pts d.sustain f r (K + k))) :
    ((prepare d look e0).2 = true ∧ (tick (prepare d look e0).1).level = withRelease h pts d.sustain f r K ∧
      Pos h d pts f (after d look e0) (K + 1) r ∧ (after d look e0).stage < pts.length) ∨
    ((prepare d look e0).2 = false ∧ (∀ k, withRelease h pts d.sustain f r (K + k) = 0) ∧
      ∀ n, Pos h d pts f (prepare d look e0).1 (K + (n + 1)) r) := by
  have hs := skip_same d look e
  rcases skip_spec g _ e i src j p rfl a hf hj with ⟨h1, i', src', j', p', b1, b2, b3, b4, b6, b5⟩ | ⟨h1, h2⟩
  · left
    unfold after
    rw [hp]
    obtain ⟨t1, t2, t3⟩ := tick_spec g b1 (by rw [hs.period, hper]) b4
    have hlev : (tick (skip d look e).1).level = withRelease h pts d.sustain f r K := by
      rw [t1, b5]
      rcases hphase with ⟨c1, c2, c3, c4, c5, _⟩ | ⟨c1, c2, c3, c4⟩
      · rw [c5, rel_before c4]; rfl
      · rw [c4]; rfl
    have a' : At h d pts (countDown (tick (skip d look e).1) 1) i' src' (j' + 1) p' :=
      ⟨t2.get, t2.stage, t2.source, t2.target, t2.stageTime, t2.sustained, t2.curve, t2.time, t2.level⟩
    have hwave : ∀ k, W h d pts i' src' (j' + 1) k = W h d pts i src j (k + 1) := fun k => by rw [t3, b5]
    refine ⟨h1, hlev, ?_, by rw [a'.stage]; exact (List.getElem?_eq_some_iff.mp a'.get).1⟩
    rcases hphase with ⟨c1, c2, c3, c4, c5, c6⟩ | ⟨c1, c2, ⟨x, c3, c4, c6⟩, hw⟩
    · refine Pos.held i' src' (j' + 1) p' a' (b3 c1) ?_ ?_ ?_ ?_ ?_ ?_ ?_
      · rcases b4 with b4 | b4
        · exact Or.inl b4
        · exact Or.inr b4
      · exact hs.released.trans c2
      · show (countDown (tick (skip d look e).1) 1).untilRelease = _
        unfold countDown
        dsimp only
        have : (tick (skip d look e).1).untilRelease = r.map (· - K) := hs.until_.trans c3
        rw [this]
        cases r with
        | none => rfl
        | some x => simp [Nat.sub_add_eq]
      · intro x hx; have := c4 x hx; omega
      · intro k; rw [hwave, c5]; congr 1; omega
      · show (tick (skip d look e).1).level = f K
        rw [t1, b5, c5]; rfl
      · intro hlen
        have h6 := c6 hlen
        rw [← b6] at h6
        have hne : j' < frames h p' := by
          rcases b4 with b4 | b4
          · have := (List.getElem?_eq_some_iff.mp b1.get).1; omega
          · exact b4
        unfold rem at h6 ⊢
        omega
    · refine Pos.left i' src' (j' + 1) p' x a' (by omega) ?_ (hs.released.trans c2) c3 (by omega) ?_ hlev ?_
      · rcases b4 with b4 | b4
        · omega
        · exact b4
      · intro k; rw [hwave, hw]; congr 1; omega
      · rw [← b6] at c6
        have hne : j' < frames h p' := by
          rcases b4 with b4 | b4
          · omega
          · exact b4
        unfold rem at c6 ⊢
        omega
  · right
    rw [hp]
    have hst := (skip_stage d look e).2.2 h1
    rw [g.length] at hst
    rcases hphase with ⟨c1, c2, c3, c4, c5, c6⟩ | ⟨c1, c2, ⟨x, c3, c4, c6⟩, hw⟩
    · have hf0 : ∀ k, f (K + k) = 0 := fun k => by rw [← c5, (h2 _).1]
      have hsl := (h2 0).2 c1
      have hf1 : ∀ n k, f (K + (n + 1) + k) = 0 := fun n k => by rw [Nat.add_assoc]; exact hf0 _
      exact ⟨h1, rel_zero hsl hf0, fun n => Pos.over hst (fun _ _ _ => ⟨hsl, hf1 n⟩) (fun _ => ⟨hsl, hf1 n⟩) (rel_zero hsl (hf1 n))⟩
    · have hz : ∀ k, withRelease h pts d.sustain f r (K + k) = 0 := fun k => by rw [← hw, (h2 _).1]
      exact ⟨h1, hz, fun n => Pos.over hst (fun y hy hKy => by rw [c3] at hy; cases hy; omega)
        (fun hc => by rw [c3] at hc; simp at hc) (fun k => by rw [Nat.add_assoc]; exact hz _)⟩

/-- The frame at which the release is due. -/
theorem due_spec (g : Given h d look pts) {f : Nat → ℚ} {K : Nat} {r : Option Nat} {e : Env} (hi : e.stage ≤ d.sustain)
    (hl : e.level = before f K) (hu : e.untilRelease = r.map (· - K)) (hdue : r = some K) (hper : e.period = h)
    (hf : e.freeRunning = false) :
    ((prepare d look e).2 = true ∧ (tick (prepare d look e).1).level = withRelease h pts d.sustain f r K ∧
      Pos h d pts f (after d look e) (K + 1) r ∧ (after d look e).stage < pts.length) ∨
    ((prepare d look e).2 = false ∧ (∀ k, withRelease h pts d.sustain f r (K + k) = 0) ∧
      ∀ n, Pos h d pts f (prepare d look e).1 (K + (n + 1)) r) := by
  have hc : check e = { e with released := true, untilRelease := none } := by
    unfold check
    rw [if_pos (by rw [hu, hdue]; simp)]
  obtain ⟨f1, f2⟩ := forward_spec g _ (check e) rfl (by rw [(check_same e).2.2.2]; exact hi)
  have hlc : (check e).level = before f K := by rw [hc]; exact hl
  have hrc : (check e).released = true := by rw [hc]
  have hfs := forward_same d look (check e)
  have hprep : prepare d look e = if (forward d look (check e)).2 then skip d look (forward d look (check e)).1
      else forward d look (check e) := by
    unfold prepare
    dsimp only
    rw [if_pos hrc]
  by_cases hmore : d.sustain + 1 < pts.length
  · obtain ⟨p', g1, g2⟩ := f1 hmore
    rw [hlc] at g2
    rw [g1, if_pos rfl] at hprep
    apply finish_prepare g g2 (by rw [hfs.period, (check_same e).1, hper]) (by rw [hfs.free, (check_same e).2.1, hf])
      (Or.inr (Nat.zero_le _)) hprep
    refine Or.inr ⟨by omega, hfs.released.trans hrc, ⟨K, hdue, le_refl _, by unfold rem; rw [Nat.sub_self, Nat.add_zero, Nat.sub_zero, drop_cons g2.get]; simp [total]⟩, fun k => ?_⟩
    rw [visit_W _ _ _ (by omega), hdue]
    simp only [withRelease]
    rw [if_neg (by omega), Nat.add_sub_cancel_left]
  · have hfalse := f2 hmore
    rw [hfalse] at hprep
    simp only [Bool.false_eq_true, if_false] at hprep
    have hz : ∀ k, withRelease h pts d.sustain f r (K + k) = 0 := fun k => by
      rw [hdue]
      simp only [withRelease]
      rw [if_neg (by omega), List.drop_eq_nil_of_le (by omega)]
      rfl
    refine Or.inr ⟨by rw [hprep]; exact hfalse, hz, fun n => ?_⟩
    rw [hprep]
    have hst := (forward_stage d look (check e)).2.2 hfalse
    rw [g.length] at hst
    exact Pos.over hst (fun y hy hKy => by rw [hdue] at hy; cases hy; omega) (fun hc => by rw [hdue] at hc; simp at hc)
      (fun k => by rw [Nat.add_assoc]; exact hz _)

/-- One frame of a history. -/
theorem frame_spec (g : Given h d look pts) {f : Nat → ℚ} {K : Nat} {r : Option Nat} {e : Env} (hpos : Pos h d pts f e K r)
    (hs : ¬ pts.length ≤ e.stage) (hper : e.period = h) (hf : e.freeRunning = false) :
    ((prepare d look e).2 = true ∧ (tick (prepare d look e).1).level = withRelease h pts d.sustain f r K ∧
      Pos h d pts f (after d look e) (K + 1) r ∧ (after d look e).stage < pts.length) ∨
    ((prepare d look e).2 = false ∧ (∀ k, withRelease h pts d.sustain f r (K + k) = 0) ∧
      ∀ n, Pos h d pts f (prepare d look e).1 (K + (n + 1)) r) := by
  cases hpos with
  | over hs' _ _ _ => exact absurd hs' hs
  | left i src j p x a hi hj hr hx hxK hw hl hrem =>
    have ac : At h d pts (check e) i src j p := by
      unfold check
      split
      · exact ⟨a.get, a.stage, a.source, a.target, a.stageTime, a.sustained, a.curve, a.time, a.level⟩
      · exact a
    have hrc : (check e).released = true := by unfold check; split; rfl; exact hr
    have hpr : prepare d look e = skip d look (check e) := by
      unfold prepare
      dsimp only
      rw [if_pos hrc, forward_id d look (check e) (by rw [ac.stage]; exact hi)]
      rfl
    exact finish_prepare g ac (by rw [(check_same e).1, hper]) (by rw [(check_same e).2.1, hf]) (Or.inr hj) hpr
      (Or.inr ⟨hi, hrc, ⟨x, hx, by omega, hrem⟩, hw⟩)
  | stay v hstage hlt hsus hsrc htgt hlev hr hu hK hw hK0 =>
    have hl : e.level = before f K := by
      obtain ⟨K', rfl⟩ := Nat.exists_eq_succ_of_ne_zero hK0.ne'
      rw [hlev]
      exact (hw K').symm
    by_cases hdue : r = some K
    · exact due_spec g (le_of_eq hstage) hl hu hdue hper hf
    · have hlt' : ∀ x, r = some x → K < x := fun x hx => by
        have := hK x hx
        rcases Nat.lt_or_eq_of_le this with h' | h'
        · exact h'
        · exact absurd (by rw [hx, h']) hdue
      have hid : prepare d look e = (e, true) := by
        apply prepare_id
        · rw [hu]
          cases hrr : r with
          | none => simp
          | some x => have := hlt' x hrr; simp only [Option.map_some, ne_eq, Option.some.injEq]; omega
        · rw [hr]; simp
        · rw [hsus, hf]; simp
      have htick : (tick e).level = v := by
        unfold tick
        dsimp only
        rw [hsrc, htgt]
        ring
      left
      unfold after
      rw [hid]
      refine ⟨rfl, by rw [htick, rel_before hlt', hw], ?_, by show e.stage < _; omega⟩
      refine Pos.stay v hstage hlt hsus hsrc htgt htick hr ?_ (fun x hx => hlt' x hx) hw (Nat.succ_pos K)
      show e.untilRelease.map (· - 1) = _
      rw [hu]
      cases r with
      | none => rfl
      | some x => simp [Nat.sub_add_eq]
  | held i src j p a hi hj hr hu hK hw hl hrem =>
    by_cases hdue : r = some K
    · exact due_spec g (by rw [a.stage]; exact hi) hl hu hdue hper hf
    · have hlt : ∀ x, r = some x → K < x := fun x hx => by
        have := hK x hx
        rcases Nat.lt_or_eq_of_le this with h' | h'
        · exact h'
        · exact absurd (by rw [hx, h']) hdue
      have hc : check e = e := by
        unfold check
        rw [if_neg]
        rw [hu]
        cases hrr : r with
        | none => simp
        | some x => have := hlt x hrr; simp only [Option.map_some, Option.some.injEq]; omega
      have hpr : prepare d look e = skip d look e := by
        unfold prepare
        dsimp only
        rw [hc, hr]
        simp
      exact finish_prepare g a hper hf hj hpr (Or.inl ⟨hi, hr, hu, hlt, hw, hrem⟩)

/-- The frames of a history while the envelope is not over. -/
theorem loop_spec (g : Given h d look pts) {f : Nat → ℚ} {r : Option Nat} (n : Nat) : ∀ {K : Nat} {e : Env}, Pos h d pts f e K r →
    ¬ pts.length ≤ e.stage → e.period = h → e.freeRunning = false →
    ∃ e', loop d look e n = some ((List.range n).map (fun k => withRelease h pts d.sustain f r (K + k)), e') ∧
      Pos h d pts f e' (K + n) r ∧ e'.period = h ∧ e'.freeRunning = false ∧ e'.delayLeft = e.delayLeft := by
  induction n with
  | zero =>
    intro K e hpos hs hper hf
    refine ⟨e, ?_, hpos, hper, hf, rfl⟩
    rw [loop, if_pos rfl]
    rfl
  | succ n ih =>
    intro K e hpos hs hper hf
    have hsame := prepare_same d look e
    have hck := check_same e
    rcases frame_spec g hpos hs hper hf with ⟨h1, h2, h3, h4⟩ | ⟨h1, h2, h3⟩
    · have ha : (after d look e).period = h ∧ (after d look e).freeRunning = false ∧ (after d look e).delayLeft = e.delayLeft := by
        refine ⟨?_, ?_, ?_⟩
        · show (prepare d look e).1.period = h
          rw [hsame.period, hck.1, hper]
        · show (prepare d look e).1.freeRunning = false
          rw [hsame.free, hck.2.1, hf]
        · show (prepare d look e).1.delayLeft = _
          rw [hsame.delay, hck.2.2.1]
      obtain ⟨e', b1, b2, b3, b4, b5⟩ := ih h3 (Nat.not_le.mpr h4) ha.1 ha.2.1
      refine ⟨e', ?_, by rw [show K + (n + 1) = K + 1 + n by omega]; exact b2, b3, b4, b5.trans ha.2.2⟩
      rw [loop_succ d look e n hf h1, b1, Option.map_some, List.range_succ_eq_map, List.map_cons, List.map_map, h2]
      congr 3
      apply List.map_congr_left
      intro k _
      show withRelease h pts d.sustain f r (K + 1 + k) = withRelease h pts d.sustain f r (K + (k + 1))
      congr 1
      omega
    · refine ⟨_, ?_, h3 n, ?_, ?_, ?_⟩
      rotate_left
      · rw [hsame.period, hck.1, hper]
      · rw [hsame.free, hck.2.1, hf]
      · rw [hsame.delay, hck.2.2.1]
      · rw [loop_ended d look e n h1]
        congr 2
        refine (List.eq_replicate_iff.mpr ⟨by simp, ?_⟩).symm
        intro x hx
        obtain ⟨k, _, rfl⟩ := List.mem_map.mp hx
        exact h2 k

theorem pos_delay {f : Nat → ℚ} {r : Option Nat} {K : Nat} {e : Env} (D : Nat) (hp : Pos h d pts f e K r) :
    Pos h d pts f { e with delayLeft := D } K r := by
  cases hp with
  | held i src j p a hi hj hr hu hK hw hl hrem =>
    exact Pos.held i src j p ⟨a.get, a.stage, a.source, a.target, a.stageTime, a.sustained, a.curve, a.time, a.level⟩ hi hj hr hu hK hw
      hl hrem
  | stay v hstage hlt hsus hsrc htgt hlev hr hu hK hw hK0 => exact Pos.stay v hstage hlt hsus hsrc htgt hlev hr hu hK hw hK0
  | left i src j p x a hi hj hr hx hxK hw hl hrem =>
    exact Pos.left i src j p x ⟨a.get, a.stage, a.source, a.target, a.stageTime, a.sustained, a.curve, a.time, a.level⟩ hi hj hr hx hxK
      hw hl hrem
  | over hs hn hn' hz => exact Pos.over hs hn hn' hz

theorem over_later {f : Nat → ℚ} {r : Option Nat} {K : Nat} {e : Env} (m : Nat) (hp : Pos h d pts f e K r)
    (hs : pts.length ≤ e.stage) : Pos h d pts f e (K + m) r ∧ ∀ k, withRelease h pts d.sustain f r (K + k) = 0 := by
  cases hp with
  | held i src j p a => have := (List.getElem?_eq_some_iff.mp a.get).1; rw [a.stage] at hs; omega
  | stay v hstage hlt => omega
  | left i src j p x a => have := (List.getElem?_eq_some_iff.mp a.get).1; rw [a.stage] at hs; omega
  | over _ hn hn' hz =>
    refine ⟨Pos.over hs (fun x hx hK => ?_) (fun hx => ?_) (fun k => by rw [Nat.add_assoc]; exact hz _), hz⟩
    · have := hn x hx (by omega)
      exact ⟨this.1, fun k => by rw [Nat.add_assoc]; exact this.2 _⟩
    · have := hn' hx
      exact ⟨this.1, fun k => by rw [Nat.add_assoc]; exact this.2 _⟩

theorem delayed_map (F : Nat → ℚ) (n D : Nat) : (List.range n).map (fun k => if k < D then 0 else F (k - D)) =
    List.replicate (min n D) 0 ++ (List.range (n - min n D)).map F := by
  apply List.ext_getElem
  · simp
  · intro k h1 h2
    simp only [List.length_map, List.length_range] at h1
    simp only [List.getElem_map, List.getElem_range]
    by_cases hk : k < D
    · rw [if_pos hk, List.getElem_append_left (by simp only [List.length_replicate]; omega)]
      simp
    · rw [if_neg hk, List.getElem_append_right (by simp only [List.length_replicate]; omega)]
      simp only [List.getElem_map, List.getElem_range, List.length_replicate]
      congr 1
      omega

theorem process_spec (g : Given h d look pts) {f : Nat → ℚ} {r : Option Nat} {K D : Nat} {e : Env} (hp : Pos h d pts f e K r)
    (hD : e.delayLeft = D) (hper : e.period = h) (hf : e.freeRunning = false) (n : Nat) :
    ∃ e', process d look e n =
        some ((List.range n).map (fun k => if k < D then 0 else withRelease h pts d.sustain f r (K + (k - D))), e') ∧
      Pos h d pts f e' (K + (n - D)) r ∧ e'.period = h ∧ e'.freeRunning = false ∧ e'.delayLeft = D - n := by
  rw [delayed_map (fun k => withRelease h pts d.sustain f r (K + k))]
  unfold process
  dsimp only
  rw [hD, show D - min n D = D - n by omega]
  have hp' := pos_delay (D - n) hp
  unfold finished
  dsimp only
  rw [g.length]
  by_cases hs : pts.length ≤ e.stage
  · rw [if_pos (by simpa using hs)]
    obtain ⟨o1, o2⟩ := over_later (n - D) hp' hs
    refine ⟨_, ?_, o1, hper, hf, rfl⟩
    congr 2
    have hz : (List.range (n - min n D)).map (fun k => withRelease h pts d.sustain f r (K + k)) = List.replicate (n - min n D) 0 := by
      refine List.eq_replicate_iff.mpr ⟨by simp, fun x hx => ?_⟩
      obtain ⟨k, _, rfl⟩ := List.mem_map.mp hx
      exact o2 k
    rw [hz, List.replicate_append_replicate]
    congr 1
    omega
  · rw [if_neg (by simpa using hs)]
    obtain ⟨e', l1, l2, l3, l4, l5⟩ := loop_spec g (n - min n D) hp' hs hper hf
    rw [l1]
    refine ⟨e', rfl, ?_, l3, l4, l5⟩
    rw [show n - D = n - min n D by omega]
    exact l2

theorem release_pos {f : Nat → ℚ} {r : Option Nat} {K : Nat} {e : Env} (hp : Pos h d pts f e K r) (delay : Nat) :
    Pos h d pts f (release e delay) K (ask r K delay) := by
  have hask : ∀ (_ : ∀ x, r = some x → K ≤ x), ask r K delay = some (K + delay) := fun hK => by
    unfold ask
    cases r with
    | none => rfl
    | some x => have := hK x rfl; simp only; rw [if_neg (by omega)]
  cases hp with
  | held i src j p a hi hj hr hu hK hw hl hrem =>
    rw [hask hK]
    exact Pos.held i src j p ⟨a.get, a.stage, a.source, a.target, a.stageTime, a.sustained, a.curve, a.time, a.level⟩ hi hj hr
      (by simp [release]) (fun x hx => by cases hx; omega) hw hl hrem
  | stay v hstage hlt hsus hsrc htgt hlev hr hu hK hw hK0 =>
    rw [hask hK]
    exact Pos.stay v hstage hlt hsus hsrc htgt hlev hr (by simp [release]) (fun x hx => by cases hx; omega) hw hK0
  | left i src j p x a hi hj hr hx hxK hw hl hrem =>
    have : ask r K delay = r := by unfold ask; rw [hx]; simp [hxK]
    rw [this]
    exact Pos.left i src j p x ⟨a.get, a.stage, a.source, a.target, a.stageTime, a.sustained, a.curve, a.time, a.level⟩ hi hj hr hx hxK
      hw hl hrem
  | over hs hn hn' hz =>
    by_cases hlate : ∃ x, r = some x ∧ x < K
    · obtain ⟨x, hx, hxK⟩ := hlate
      have : ask r K delay = r := by unfold ask; rw [hx]; simp [hxK]
      rw [this]
      exact Pos.over hs hn hn' hz
    · have hK : ∀ x, r = some x → K ≤ x := fun x hx => by
        by_contra hc
        exact hlate ⟨x, hx, by omega⟩
      have hall : pts.length ≤ d.sustain ∧ ∀ k, f (K + k) = 0 := by
        cases hr : r with
        | none => exact hn' hr
        | some x => exact hn x hr (hK x hr)
      exact Pos.over hs (fun _ _ _ => hall) (fun _ => hall) (rel_zero hall.1 hall.2)

theorem run_spec (g : Given h d look pts) {f : Nat → ℚ} (ops : List Op) : ∀ {r : Option Nat} {K D : Nat} {e : Env},
    Pos h d pts f e K r → e.delayLeft = D → e.period = h → e.freeRunning = false →
    ∃ e', run d look ops e = some (expected h pts d.sustain f ops D K r, e') ∧
      Pos h d pts f e' (track ops D K r).2.1 (track ops D K r).2.2 ∧ e'.period = h ∧ e'.freeRunning = false ∧
      e'.delayLeft = (track ops D K r).1 := by
  induction ops with
  | nil => intro r K D e hp hD hper hf; exact ⟨e, rfl, hp, hper, hf, hD⟩
  | cons op ops ih =>
    intro r K D e hp hD hper hf
    cases op with
    | render n =>
      obtain ⟨e1, h1, h2, h3, h4, h5⟩ := process_spec g hp hD hper hf n
      obtain ⟨e2, i1, i2, i3⟩ := ih h2 h5 h3 h4
      refine ⟨e2, ?_, i2, i3⟩
      unfold run
      rw [h1, Option.bind_some, i1]
      rfl
    | release delay => exact ih (release_pos hp delay) hD hper hf

theorem start_pos (g : Given h d look pts) (e : Env) (delay : Nat) (hper : e.period = h) :
    Pos h d pts (wave h pts d.sustain 0) (start d look (configure e) delay) 0 none ∧
    (start d look (configure e) delay).period = h ∧ (start d look (configure e) delay).freeRunning = false ∧
    (start d look (configure e) delay).delayLeft = delay := by
  unfold start
  have hs := advance_same d look { configure e with delayLeft := delay, untilRelease := none } 0
  refine ⟨?_, hs.period.trans hper, hs.free, hs.delay⟩
  cases hp : pts[0]? with
  | none =>
    have : pts = [] := by simpa using hp
    subst this
    refine Pos.over (Nat.zero_le _) (fun _ _ _ => ⟨Nat.zero_le _, fun k => ?_⟩) (fun _ => ⟨Nat.zero_le _, fun k => ?_⟩) (fun k => ?_) <;>
      simp [withRelease, wave]
  | some p =>
    obtain ⟨a, hl⟩ := advance_at g { configure e with delayLeft := delay, untilRelease := none } 0 p hp
    have hl0 : ({ configure e with delayLeft := delay, untilRelease := none } : Env).level = 0 := rfl
    rw [hl0] at a hl
    refine Pos.held 0 0 0 p a (Nat.zero_le _) (Or.inr (Nat.zero_le _)) hs.released hs.until_ (fun x hx => by cases hx) (fun k => ?_) hl
      (fun _ => ?_)
    · simp [W, mark]
    · have := drop_cons hp
      rw [List.drop_zero] at this
      unfold rem
      conv => rhs; rw [this]
      simp [total]

end

/-! ### C36 -/

/-- C36: for every list of points (times not negative), every sustain point, every trigger delay, and every history of blocks
and releases: each frame of each block is the one the specification gives. The envelope is 0 during the delay, visits the
points in order along their shapes, stays at the sustain point until the release, visits the remaining points from the level
it has reached, and is 0 after the last one. -/
theorem flex_follows_points_partial (h : ℚ) (d : Desc) (look : Look) (pts : List Pt) (hh : 0 < h) (hc : d.curves = pts.map Pt.curve)
    (hlook : ∀ i p, pts[i]? = some p → look i = (p.time, p.level)) (htimes : ∀ p ∈ pts, 0 ≤ p.time)
    (hlast : ∀ p ∈ pts, p.curve 127 = 1) (e : Env) (he : e.period = h) (delay : Nat) (ops : List Op) :
    ∃ e', run d look ops (start d look (configure e) delay) =
      some (expected h pts d.sustain (wave h pts d.sustain 0) ops delay 0 none, e') := by
  have g : Given h d look pts := ⟨hh, hc, hlook, htimes, hlast⟩
  obtain ⟨h1, h2, h3, h4⟩ := start_pos g e delay he
  obtain ⟨e', h5, _⟩ := run_spec g ops h1 h4 h2 h3
  exact ⟨e', h5⟩

/-- C36: it finishes. Once more frames were rendered since the release than the remaining points take (or, if there is no
sustain point, more than all of the points take), the envelope says it is finished. -/
theorem flex_finishes_partial (h : ℚ) (d : Desc) (look : Look) (pts : List Pt) (hh : 0 < h) (hc : d.curves = pts.map Pt.curve)
    (hlook : ∀ i p, pts[i]? = some p → look i = (p.time, p.level)) (htimes : ∀ p ∈ pts, 0 ≤ p.time)
    (hlast : ∀ p ∈ pts, p.curve 127 = 1) (e : Env) (he : e.period = h) (delay : Nat) (ops : List Op) (out : List ℚ) (e' : Env)
    (hrun : run d look ops (start d look (configure e) delay) = some (out, e'))
    (hend : (∃ x, (track ops delay 0 none).2.2 = some x ∧
        x + total h (pts.drop (d.sustain + 1)) < (track ops delay 0 none).2.1) ∨
      (pts.length ≤ d.sustain ∧ total h pts < (track ops delay 0 none).2.1)) :
    finished d e' = true := by
  have g : Given h d look pts := ⟨hh, hc, hlook, htimes, hlast⟩
  obtain ⟨h1, h2, h3, h4⟩ := start_pos g e delay he
  obtain ⟨e1, h5, h6, _⟩ := run_spec g ops h1 h4 h2 h3
  rw [hrun] at h5
  cases h5
  generalize (track ops delay 0 none).2.1 = K at *
  generalize (track ops delay 0 none).2.2 = r at *
  unfold finished
  rw [g.length]
  cases h6 with
  | over hs => simpa using hs
  | held i src j p a hi hj hr hu hK hw hl hrem =>
    exfalso
    rcases hend with ⟨x, hx, hx'⟩ | ⟨hs, hx'⟩
    · have := hK x hx; omega
    · have := hrem hs; omega
  | stay v hstage hlt hsus hsrc htgt hlev hr hu hK hw hK0 =>
    exfalso
    rcases hend with ⟨x, hx, hx'⟩ | ⟨hs, hx'⟩
    · have := hK x hx; omega
    · omega
  | left i src j p x a hi hj hr hx hxK hw hl hrem =>
    exfalso
    have := (List.getElem?_eq_some_iff.mp a.get).1
    rcases hend with ⟨y, hy, hy'⟩ | ⟨hs, hx'⟩
    · rw [hx] at hy; cases hy; omega
    · omega

/-- C36: a release that has taken place can be taken back before the end of the envelope: the level stays where it is, until
another release, after which the remaining points are visited from there. -/
theorem flex_cancel_partial (h : ℚ) (d : Desc) (look : Look) (pts : List Pt) (hh : 0 < h) (hc : d.curves = pts.map Pt.curve)
    (hlook : ∀ i p, pts[i]? = some p → look i = (p.time, p.level)) (htimes : ∀ p ∈ pts, 0 ≤ p.time)
    (hlast : ∀ p ∈ pts, p.curve 127 = 1) (e : Env) (he : e.period = h) (delay : Nat) (ops ops' : List Op) (out : List ℚ) (e' : Env)
    (hrun : run d look ops (start d look (configure e) delay) = some (out, e')) (x : Nat)
    (hrel : (track ops delay 0 none).2.2 = some x) (hx : x < (track ops delay 0 none).2.1) (hnf : finished d e' = false)
    (hnone : e'.untilRelease = none) :
    ∃ e'', run d look ops' (cancelRelease d look e') =
      some (expected h pts d.sustain
        (fun _ => withRelease h pts d.sustain (wave h pts d.sustain 0) (some x) ((track ops delay 0 none).2.1 - 1)) ops'
        (track ops delay 0 none).1 (track ops delay 0 none).2.1 none, e'') := by
  have g : Given h d look pts := ⟨hh, hc, hlook, htimes, hlast⟩
  obtain ⟨h1, h2, h3, h4⟩ := start_pos g e delay he
  obtain ⟨e1, h5, h6, h7, h8, h9⟩ := run_spec g ops h1 h4 h2 h3
  rw [hrun] at h5
  cases h5
  generalize (track ops delay 0 none).2.1 = K at *
  generalize (track ops delay 0 none).1 = D at *
  rw [hrel] at h6
  unfold finished at hnf
  rw [g.length] at hnf
  cases h6 with
  | over hs => simp [hs] at hnf
  | held i src j p a hi hj hr hu hK hw hl hrem => have := hK x rfl; omega
  | stay v hstage hlt hsus hsrc htgt hlev hr hu hK hw hK0 => have := hK x rfl; omega
  | left i src j p y a hi hj hr hy hyK hw hl hrem =>
    have hi' := (List.getElem?_eq_some_iff.mp a.get).1
    have hs : d.sustain < pts.length := by omega
    have hsame := advance_same d look { e' with released := false } d.sustain
    obtain ⟨a', hl'⟩ := advance_at g { e' with released := false } d.sustain _ (List.getElem?_eq_getElem hs)
    have hcan : cancelRelease d look e' =
        { (advance d look { e' with released := false } d.sustain).1 with
          target := (advance d look { e' with released := false } d.sustain).1.level } := by
      unfold cancelRelease
      rw [hnone, hr]
      rfl
    have hp : Pos h d pts (fun _ => withRelease h pts d.sustain (wave h pts d.sustain 0) (some x) (K - 1)) (cancelRelease d look e') K
        none := by
      rw [hcan]
      refine Pos.stay _ ?_ hs ?_ ?_ ?_ ?_ ?_ ?_ (fun x hx => by cases hx) (fun _ => rfl) (by omega)
      · exact a'.stage
      · show (advance d look { e' with released := false } d.sustain).1.sustained = true
        rw [a'.sustained]; simp
      · exact a'.source.trans hl
      · exact hl'.trans hl
      · exact hl'.trans hl
      · exact hsame.released
      · exact hsame.until_.trans hnone
    obtain ⟨e2, i1, _⟩ := run_spec g ops' (D := D) hp (by rw [hcan]; exact hsame.delay.trans h9) (by rw [hcan]; exact hsame.period.trans h7)
      (by rw [hcan]; exact hsame.free.trans h8)
    exact ⟨e2, i1⟩

/-! With controllers that change times and levels, and in dynamic mode -/

/-- The stage never goes back, whatever the controllers do. -/
theorem loop_stage (d : Desc) (look : Look) (e : Env) (n : Nat) (out : List ℚ) (e' : Env) (hl : loop d look e n = some (out, e')) :
    e.stage ≤ e'.stage := by
  induction n using Nat.strongRecOn generalizing e out e' with
  | ind n ih =>
    rw [loop] at hl
    have hps := prepare_stage d look e
    by_cases h0 : n = 0
    · rw [if_pos h0] at hl; cases hl; exact le_refl _
    · rw [if_neg h0] at hl
      dsimp only at hl
      split at hl
      · split at hl
        · rename_i hlen
          split at hl
          · rename_i q hq
            cases hl
            have h1 := ih _ (by omega) _ q.1 q.2 hq
            have h2 := (render_fields (allowed (prepare d look e).1 n) (prepare d look e).1).1
            have h3 : (countDown (render (allowed (prepare d look e).1 n) (prepare d look e).1).2
              (render (allowed (prepare d look e).1 n) (prepare d look e).1).1.length).stage = (prepare d look e).1.stage := h2
            omega
          · cases hl
        · cases hl
      · cases hl; exact hps

/-- Not released, and at the sustain stage at most. -/
structure Waiting (d : Desc) (e : Env) : Prop where
  until_ : e.untilRelease = none
  released : e.released = false
  free : e.freeRunning = false
  stage : e.stage ≤ d.sustain
  sustained : e.sustained = decide (e.stage = d.sustain)

theorem advance_waiting (d : Desc) (look : Look) (e : Env) (k : Nat) (hu : e.untilRelease = none) (hr : e.released = false)
    (hf : e.freeRunning = false) (hk : k ≤ d.sustain) (hlen : k < d.curves.length) : Waiting d (advance d look e k).1 := by
  have hs := advance_same d look e k
  refine ⟨hs.until_.trans hu, hs.released.trans hr, hs.free.trans hf, by rw [advance_stage]; exact hk, ?_⟩
  rw [advance_stage]
  unfold advance
  rw [List.getElem?_eq_getElem hlen]

theorem skip_waiting (d : Desc) (look : Look) (e : Env) (hsl : d.sustain < d.curves.length) (w : Waiting d e) :
    (skip d look e).2 = true ∧ Waiting d (skip d look e).1 := by
  fun_induction skip d look e with
  | case1 e h h' ih =>
    have hne : e.stage ≠ d.sustain := fun hc => by
      have := w.sustained
      rw [hc] at this
      rcases h.1 with h1 | h1
      · rw [h1] at this; simp at this
      · rw [w.free] at h1; simp at h1
    have hst := w.stage
    have hc := complete_same e
    exact ih (advance_waiting d look (complete e) _ (hc.until_.trans w.until_) (hc.released.trans w.released) (hc.free.trans w.free)
      (by omega) (by omega))
  | case2 e h h' =>
    exfalso
    have hne : e.stage ≠ d.sustain := fun hc => by
      have := w.sustained
      rw [hc] at this
      rcases h.1 with h1 | h1
      · rw [h1] at this; simp at this
      · rw [w.free] at h1; simp at h1
    have hst := w.stage
    rw [advance_true] at h'
    omega
  | case3 e h => exact ⟨rfl, w⟩

theorem prepare_waiting (d : Desc) (look : Look) (e : Env) (hsl : d.sustain < d.curves.length) (w : Waiting d e) :
    (prepare d look e).2 = true ∧ Waiting d (prepare d look e).1 := by
  have hc : check e = e := by unfold check; rw [if_neg (by rw [w.until_]; simp)]
  have hp : prepare d look e = skip d look e := by
    unfold prepare
    dsimp only
    rw [hc, w.released]
    simp
  rw [hp]
  exact skip_waiting d look e hsl w

theorem loop_waiting (d : Desc) (look : Look) (e : Env) (n : Nat) (hsl : d.sustain < d.curves.length) (w : Waiting d e)
    (out : List ℚ) (e' : Env) (hl : loop d look e n = some (out, e')) : Waiting d e' := by
  induction n using Nat.strongRecOn generalizing e out e' with
  | ind n ih =>
    rw [loop] at hl
    obtain ⟨p1, p2⟩ := prepare_waiting d look e hsl w
    by_cases h0 : n = 0
    · rw [if_pos h0] at hl; cases hl; exact w
    · rw [if_neg h0] at hl
      dsimp only at hl
      rw [if_pos p1] at hl
      split at hl
      · rename_i hlen
        split at hl
        · rename_i q hq
          cases hl
          obtain ⟨r1, r2, r3, r4⟩ := render_fields (allowed (prepare d look e).1 n) (prepare d look e).1
          have wn : Waiting d (countDown (render (allowed (prepare d look e).1 n) (prepare d look e).1).2
              (render (allowed (prepare d look e).1 n) (prepare d look e).1).1.length) := by
            refine ⟨?_, r2.released.trans p2.released, r2.free.trans p2.free, ?_, ?_⟩
            · show Option.map _ _ = none
              rw [r2.until_, p2.until_]
              rfl
            · show (render _ _).2.stage ≤ _
              rw [r1]
              exact p2.stage
            · show (render _ _).2.sustained = decide ((render _ _).2.stage = _)
              rw [r3, r1]
              exact p2.sustained
          exact ih _ (by omega) _ wn q.1 q.2 hq
        · cases hl
      · cases hl

theorem process_waiting (d : Desc) (look : Look) (e : Env) (n : Nat) (hsl : d.sustain < d.curves.length) (w : Waiting d e) :
    ∃ out e', process d look e n = some (out, e') ∧ out.length = n ∧ Waiting d e' ∧ e.stage ≤ e'.stage := by
  have w' : Waiting d { e with delayLeft := e.delayLeft - min n e.delayLeft } := ⟨w.1, w.2, w.3, w.4, w.5⟩
  obtain ⟨out, e', h1, h2⟩ := loop_total d look { e with delayLeft := e.delayLeft - min n e.delayLeft } (n - min n e.delayLeft)
  have hst := w.stage
  have hls := loop_stage d look _ _ _ _ h1
  unfold process
  dsimp only
  rw [if_neg (by unfold finished; simp only [ge_iff_le, decide_eq_true_eq]; omega), h1]
  exact ⟨_, e', rfl, by simp only [List.length_append, List.length_replicate]; omega, loop_waiting d look _ _ hsl w' _ _ h1, hls⟩

theorem chunks_waiting (d : Desc) (look : Nat → Look) (hsl : d.sustain < d.curves.length) (n : Nat) : ∀ (e : Env) (done : Nat),
    Waiting d e → ∃ out e', chunks d look e done n = some (out, e') ∧ out.length = n ∧ Waiting d e' ∧ e.stage ≤ e'.stage := by
  induction n using Nat.strongRecOn with
  | ind n ih =>
    intro e done w
    rw [chunks]
    by_cases h0 : n = 0
    · rw [dif_pos h0]; exact ⟨[], e, rfl, h0.symm, w, le_refl _⟩
    · rw [dif_neg h0]
      have us := update_same d (look done) e
      have ust : (update d (look done) e).stage = e.stage ∧ (update d (look done) e).sustained = e.sustained := by
        unfold update; split <;> exact ⟨rfl, rfl⟩
      obtain ⟨out, e1, h1, h2, h3, h4⟩ := process_waiting d (look 0) (update d (look done) e) (min 16 n) hsl
        ⟨us.until_.trans w.until_, us.released.trans w.released, us.free.trans w.free, by rw [ust.1]; exact w.stage,
          by rw [ust.1, ust.2]; exact w.sustained⟩
      obtain ⟨out', e2, k1, k2, k3, k4⟩ := ih (n - min 16 n) (by omega) e1 (done + min 16 n) h3
      rw [h1]
      dsimp only
      rw [k1]
      rw [ust.1] at h4
      exact ⟨_, e2, rfl, by simp only [List.length_append]; omega, k3, by omega⟩

/-- Blocks one after the other; for each of them what the controllers give. -/
def blocks (d : Desc) : List ((Nat → Look) × Nat) → Env → Option Env
  | [], e => some e
  | b :: bs, e => (block d b.1 e b.2).bind (fun r => blocks d bs r.2)

/-- C36: whatever times and levels the controllers give from block to block (or, in dynamic mode, every 16 frames), an envelope
with a sustain point that is not released and not free-running goes through the stages in order, never beyond the sustain
point, and is not finished; every block is rendered. -/
theorem flex_waits (d : Desc) (look0 : Look) (bs : List ((Nat → Look) × Nat)) (hs : d.sustain < d.curves.length) (e : Env) (delay : Nat) :
    ∃ e', blocks d bs (start d look0 (configure e) delay) = some e' ∧ e'.stage ≤ d.sustain ∧ finished d e' = false := by
  have hw : Waiting d (start d look0 (configure e) delay) :=
    advance_waiting d look0 _ 0 rfl rfl rfl (Nat.zero_le _) (by omega)
  generalize start d look0 (configure e) delay = e0 at hw
  induction bs generalizing e0 with
  | nil =>
    have := hw.stage
    exact ⟨e0, rfl, this, by unfold finished; simp only [ge_iff_le, decide_eq_false_iff_not]; omega⟩
  | cons b bs ih =>
    have : ∃ out e1, block d b.1 e0 b.2 = some (out, e1) ∧ Waiting d e1 := by
      unfold block
      split
      · obtain ⟨out, e1, h1, _, h3, _⟩ := chunks_waiting d b.1 hs b.2 e0 0 hw; exact ⟨out, e1, h1, h3⟩
      · obtain ⟨out, e1, h1, _, h3, _⟩ := process_waiting d (b.1 0) e0 b.2 hs hw; exact ⟨out, e1, h1, h3⟩
    obtain ⟨out, e1, h1, h2⟩ := this
    obtain ⟨e2, h3, h4⟩ := ih e1 h2
    exact ⟨e2, by unfold blocks; rw [h1]; exact h3, h4⟩

/-- C36: the points are visited in order: whatever the state, the times and the levels, a block is rendered entirely and the
stage after it is not before the one at its start. -/
theorem flex_in_order (d : Desc) (look : Look) (e : Env) (n : Nat) : ∃ out e', process d look e n = some (out, e') ∧
    out.length = n ∧ e.stage ≤ e'.stage := by
  unfold process
  dsimp only
  split
  · exact ⟨_, _, rfl, by simp, le_refl _⟩
  · obtain ⟨out, e', h1, h2⟩ := loop_total d look { e with delayLeft := e.delayLeft - min n e.delayLeft } (n - min n e.delayLeft)
    have hls := loop_stage d look _ _ _ _ h1
    rw [h1]
    exact ⟨_, e', rfl, by simp only [List.length_append, List.length_replicate]; omega, hls⟩

/-! ### Cases -/

/-- A straight line from 0 to 1 (`Curve::getDefault`). -/
def line : Curve.Points := fun i => (i : ℚ) / 127

/-- To 1 in two frames, to the sustain level 1/2 in four, to 0 in two. -/
def pts1 : List Pt := [⟨2, 1, line⟩, ⟨4, 1/2, line⟩, ⟨2, 0, line⟩]
def d1 : Desc := { sustain := 1, curves := pts1.map Pt.curve }
def look1 : Look := fun i => match pts1[i]? with
  | some p => (p.time, p.level)
  | none => (0, 0)

def ops1 : List Op := [.render 3, .render 4, .release 3, .render 4]

/-- A case for the theorems: the hypotheses hold, the envelope waits at 1/2 from the seventh frame to the tenth, and is over
two frames later. -/
example : (0 : ℚ) < 1 ∧ d1.curves = pts1.map Pt.curve ∧ (∀ i p, pts1[i]? = some p → look1 i = (p.time, p.level)) ∧
    (∀ p ∈ pts1, 0 ≤ p.time) ∧ (∀ p ∈ pts1, p.curve 127 = 1) ∧ d1.sustain < d1.curves.length := by
  refine ⟨by norm_num, rfl, fun i p hp => by simp [look1, hp], ?_, ?_, by decide⟩
  · simp [pts1]
  · simp [pts1, line]

example : expected 1 pts1 1 (wave 1 pts1 1 0) (ops1 ++ [.render 4]) 1 0 none =
      [0, 1/2, 1, 7/8, 3/4, 5/8, 1/2, 1/2, 1/2, 1/2, 1/4, 0, 0, 0, 0] ∧
    (run d1 look1 (ops1 ++ [.render 4]) (start d1 look1 (configure { period := 1 }) 1)).map Prod.fst =
      some [0, 1/2, 1, 7/8, 3/4, 5/8, 1/2, 1/2, 1/2, 1/2, 1/4, 0, 0, 0, 0] := by decide +kernel

/-- A case for `flex_finishes_partial` and one for `flex_cancel_partial`. -/
example : track (ops1 ++ [.render 4]) 1 0 none = (0, 14, some 9) ∧ total 1 (pts1.drop 2) = 2 ∧
    (run d1 look1 (ops1 ++ [.render 4]) (start d1 look1 (configure { period := 1 }) 1)).map (fun r => finished d1 r.2) = some true ∧
    track ops1 1 0 none = (0, 10, some 9) ∧
    (run d1 look1 ops1 (start d1 look1 (configure { period := 1 }) 1)).map
      (fun r => (finished d1 r.2, r.2.untilRelease)) = some (false, none) ∧
    ((run d1 look1 ops1 (start d1 look1 (configure { period := 1 }) 1)).bind
      (fun r => run d1 look1 [.render 2, .release 1, .render 4] (cancelRelease d1 look1 r.2))).map Prod.fst =
      some [1/4, 1/4, 1/4, 1/8, 0, 0] := by decide +kernel

/-! ### What does not hold -/

/-- A release does not come at the frame asked for if the trigger delay is not over: with a note-on at frame 4 of a block and
its note-off at frame 6, the envelope that should leave its sustain level (1) at frame 6 leaves it at frame 10 (the trigger
delay is counted twice). -/
theorem release_time_violated :
    ∃ (pts : List Pt) (d : Desc) (look : Look), d.curves = pts.map Pt.curve ∧ (∀ i p, pts[i]? = some p → look i = (p.time, p.level)) ∧
      (run d look [.release 6, .render 13] (start d look (configure { period := 1 }) 4)).map Prod.fst ≠
        some [0, 0, 0, 0, 1, 1, 1/2, 0, 0, 0, 0, 0, 0] ∧
      (run d look [.release 6, .render 13] (start d look (configure { period := 1 }) 4)).map Prod.fst =
        some [0, 0, 0, 0, 1, 1, 1, 1, 1, 1, 1/2, 0, 0] := by
  refine ⟨[⟨0, 1, line⟩, ⟨2, 0, line⟩], ⟨false, 0, [line, line]⟩,
    fun i => match ([⟨0, 1, line⟩, ⟨2, 0, line⟩] : List Pt)[i]? with
      | some p => (p.time, p.level)
      | none => (0, 0), rfl, fun i p hp => by simp [hp], by decide +kernel, by decide +kernel⟩

/-- With free running the envelope depends on the sizes of the blocks: it does not stop at the sustain point if a block ends
there, and does if the block goes on. -/
theorem free_running_split_violated :
    (run d1 look1 [.render 10] { start d1 look1 (configure { period := 1 }) 0 with freeRunning := true }).map Prod.fst =
      some [1/2, 1, 7/8, 3/4, 5/8, 1/2, 1/2, 1/2, 1/2, 1/2] ∧
    (run d1 look1 [.render 6, .render 4] { start d1 look1 (configure { period := 1 }) 0 with freeRunning := true }).map Prod.fst =
      some [1/2, 1, 7/8, 3/4, 5/8, 1/2, 1/4, 0, 0, 0] := by decide +kernel

end Verif.FlexEG
