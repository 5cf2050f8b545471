import Verif.Render.Model
import Verif.Envelope.Props
import Verif.Smoother.Arrive
import Mathlib.Algebra.BigOperators.Group.List.Basic
import Mathlib.Algebra.Order.BigOperators.GroupWithZero.List
import Mathlib.Tactic.Ring

/-! The gain of a voice, frame by frame. -/
namespace Verif.Render
open Verif.Midi (EventVector Starts)
open Verif.Envelope (lineAt linear_spec)

/-- All crossfades of the region. -/
def Const.fades (c : Const) : List Fade := c.fadesIn ++ c.fadesOut

/-! ### Envelopes as lists -/

theorem mapM_some {α β : Type} (g : α → Option β) (h : α → β) (l : List α) (hl : ∀ x ∈ l, g x = some (h x)) :
    l.mapM g = some (l.map h) := by
  induction l with
  | nil => rfl
  | cons x l ih =>
    rw [List.mapM_cons, hl x (by simp), ih (fun y hy => hl y (by simp [hy]))]
    rfl

/-- The line the events of a controller draw, through the gains. -/
def lineOf (f : ℚ → ℚ) (events : EventVector) (n : Nat) (i : Nat) : ℚ :=
  match events with
  | [] => 0
  | e :: es => lineAt f ((n : Int) - 1) 0 (f e.value) es i

theorem frames_linear (f : ℚ → ℚ) (events : EventVector) (h : Starts events) (n : Nat) :
    frames n (Envelope.linearEnvelope f events n) = some ((List.range n).map (lineOf f events n)) := by
  obtain ⟨hs, v, es, rfl⟩ := h
  obtain ⟨log, h1, _, h3⟩ := linear_spec f v es hs n
  unfold frames
  rw [h1]
  show (List.range n).mapM _ = _
  apply mapM_some
  intro i hi
  rw [h3 i (List.mem_range.mp hi)]
  rfl

theorem lineAt_hull {f : ℚ → ℚ} {lo hi : ℚ} (hf : ∀ x, lo ≤ f x ∧ f x ≤ hi) (m : Int) (es : EventVector) :
    ∀ (d : Int) (v : ℚ) (i : Int), (lo ≤ v ∧ v ≤ hi) → d ≤ i → lo ≤ lineAt f m d v es i ∧ lineAt f m d v es i ≤ hi := by
  induction es with
  | nil => intro d v i hv _; exact hv
  | cons e es ih =>
    intro d v i hv hi
    unfold lineAt
    split
    · split
      · rename_i h1 h2
        have hp : (0 : ℚ) < ((min e.delay m - d : Int) : ℚ) := by exact_mod_cast (by omega : 0 < min e.delay m - d)
        have h0 : (0 : ℚ) ≤ ((i - d : Int) : ℚ) := by exact_mod_cast (by omega : 0 ≤ i - d)
        have h1 : ((i - d : Int) : ℚ) ≤ ((min e.delay m - d : Int) : ℚ) := by exact_mod_cast (by omega : i - d ≤ min e.delay m - d)
        have ht0 : 0 ≤ ((i - d : Int) : ℚ) / ((min e.delay m - d : Int) : ℚ) := div_nonneg h0 hp.le
        have ht1 : ((i - d : Int) : ℚ) / ((min e.delay m - d : Int) : ℚ) ≤ 1 := (div_le_one hp).mpr h1
        rw [mul_div_assoc]
        generalize ((i - d : Int) : ℚ) / ((min e.delay m - d : Int) : ℚ) = t at *
        have := hf e.value
        constructor <;> nlinarith [mul_le_mul_of_nonneg_left this.1 ht0, mul_le_mul_of_nonneg_left this.2 ht0,
          mul_le_mul_of_nonneg_left hv.1 (show (0:ℚ) ≤ 1 - t by linarith), mul_le_mul_of_nonneg_left hv.2 (show (0:ℚ) ≤ 1 - t by linarith)]
      · exact ih _ _ _ (hf e.value) (by omega)
    · exact hv

theorem lineOf_unit {f : ℚ → ℚ} (hf : ∀ x, 0 ≤ f x ∧ f x ≤ 1) (events : EventVector) (n i : Nat) :
    0 ≤ lineOf f events n i ∧ lineOf f events n i ≤ 1 := by
  unfold lineOf
  split
  · exact ⟨le_refl _, zero_le_one⟩
  · exact lineAt_hull hf _ _ _ _ _ (hf _) (by omega)

/-! ### The crossfade before smoothing -/

/-- The product of the crossfades, at frame `i`. -/
def fadeAt (c : Const) (m : Midi.State) (n i : Nat) : ℚ := (c.fades.map fun f => lineOf f.gain (m.cc f.cc) n i).prod

/-- Whether each of the controllers has one event. -/
def single (c : Const) (m : Midi.State) : Bool := c.fades.all fun f => (m.cc f.cc).length == 1

theorem foldl_fade (m : Midi.State) (hm : ∀ cc, Starts (m.cc cc)) (n : Nat) (fs : List Fade) (g : Nat → ℚ) (sc : Bool) :
    fs.foldl (applyFade m n) (some ((List.range n).map g, sc)) =
      some ((List.range n).map (fun i => g i * (fs.map fun f => lineOf f.gain (m.cc f.cc) n i).prod),
        sc && fs.all fun f => (m.cc f.cc).length == 1) := by
  induction fs generalizing g sc with
  | nil => simp
  | cons f fs ih =>
    have : applyFade m n (some ((List.range n).map g, sc)) f =
        some ((List.range n).map (fun i => g i * lineOf f.gain (m.cc f.cc) n i), sc && (m.cc f.cc).length == 1) := by
      unfold applyFade
      simp only [Option.bind_some]
      rw [frames_linear f.gain (m.cc f.cc) (hm f.cc) n]
      simp only [Option.map_some, Option.some.injEq, Prod.mk.injEq, and_true]
      rw [List.zipWith_map_left, List.zipWith_map_right, List.zipWith_self]
      apply List.map_congr_left
      intro i _; ring
    rw [List.foldl_cons, this, ih]
    congr 2
    · apply List.map_congr_left
      intro i _
      simp only [List.map_cons, List.prod_cons]; ring
    · simp only [List.all_cons, Bool.and_assoc]

theorem fadeInput_eq (c : Const) (m : Midi.State) (hm : ∀ cc, Starts (m.cc cc)) (n : Nat) :
    fadeInput c m n = some ((List.range n).map (fadeAt c m n), single c m) := by
  have h1 : (List.replicate n (1 : ℚ)) = (List.range n).map (fun _ => 1) := by simp
  unfold fadeInput
  rw [← List.foldl_append, h1]
  show c.fades.foldl _ _ = _
  rw [foldl_fade m hm n]
  simp only [one_mul, Bool.true_and]
  rfl

theorem prod_unit {l : List ℚ} (h : ∀ x ∈ l, 0 ≤ x ∧ x ≤ 1) : 0 ≤ l.prod ∧ l.prod ≤ 1 := by
  induction l with
  | nil => exact ⟨zero_le_one, le_refl _⟩
  | cons x l ih =>
    have := ih (fun y hy => h y (by simp [hy]))
    have hx := h x (by simp)
    rw [List.prod_cons]
    exact ⟨mul_nonneg hx.1 this.1, mul_le_one₀ hx.2 this.1 this.2⟩

/-- All gains of crossfades are between 0 and 1. -/
def Const.Unit (c : Const) : Prop := ∀ f ∈ c.fades, ∀ x, 0 ≤ f.gain x ∧ f.gain x ≤ 1

theorem fadeAt_unit {c : Const} (hc : c.Unit) (m : Midi.State) (n i : Nat) : 0 ≤ fadeAt c m n i ∧ fadeAt c m n i ≤ 1 := by
  apply prod_unit
  intro x hx
  obtain ⟨f, hf, rfl⟩ := List.mem_map.mp hx
  exact lineOf_unit (hc f hf) _ _ _

theorem fadeValue_eq (c : Const) (m : Midi.State) : fadeValue c m = (c.fades.map fun f => f.gain (ccValue m f.cc)).prod := by
  unfold fadeValue Const.fades
  simp only
  rw [← List.foldl_append]
  generalize c.fadesIn ++ c.fadesOut = fs
  have : ∀ x : ℚ, fs.foldl (fun x f => x * f.gain (ccValue m f.cc)) x = x * (fs.map fun f => f.gain (ccValue m f.cc)).prod := by
    induction fs with
    | nil => intro x; simp
    | cons f fs ih => intro x; rw [List.foldl_cons, ih, List.map_cons, List.prod_cons]; ring
  rw [this, one_mul]

theorem fadeValue_unit {c : Const} (hc : c.Unit) (m : Midi.State) : 0 ≤ fadeValue c m ∧ fadeValue c m ≤ 1 := by
  rw [fadeValue_eq]
  apply prod_unit
  intro x hx
  obtain ⟨f, hf, rfl⟩ := List.mem_map.mp hx
  exact hc f hf _

/-- A controller with one event gives its gain all through the block. -/
theorem lineOf_single {f : ℚ → ℚ} {events : EventVector} (h : events.length = 1) (n i : Nat) :
    lineOf f events n i = f ((Midi.backValue events).getD 0) := by
  match events, h with
  | [e], _ => rfl

theorem fadeAt_single {c : Const} {m : Midi.State} (h : single c m = true) (n i : Nat) : fadeAt c m n i = fadeValue c m := by
  rw [fadeValue_eq]
  unfold fadeAt
  congr 1
  apply List.map_congr_left
  intro f hf
  unfold single at h
  rw [List.all_eq_true] at h
  exact lineOf_single (by simpa using h f hf) n i

/-! ### Sessions -/

/-- The MIDI state a block is rendered with. -/
def heard (m : Midi.State) (b : List Midi.Op × Block) : Midi.State := b.1.foldl Midi.step m

/-- The MIDI state after some blocks. -/
def midiAfter (m : Midi.State) : List (List Midi.Op × Block) → Midi.State
  | [] => m
  | b :: bs => midiAfter (Midi.advanceTime (heard m b) b.2.size) bs

/-- Delays of messages are not negative. -/
def Timed (bs : List (List Midi.Op × Block)) : Prop := ∀ b ∈ bs, ∀ op ∈ b.1, 0 ≤ op.delay

/-- The inputs of the crossfade smoother. -/
def inputs (c : Const) (m : Midi.State) : List (List Midi.Op × Block) → List (List ℚ × Bool)
  | [] => []
  | b :: bs => ((List.range b.2.size).map (fadeAt c (heard m b) b.2.size), single c (heard m b)) ::
      inputs c (Midi.advanceTime (heard m b) b.2.size) bs

theorem starts_heard {m : Midi.State} (hm : ∀ t, Starts (Midi.vec m t)) {b : List Midi.Op × Block} (hb : ∀ op ∈ b.1, 0 ≤ op.delay) :
    ∀ t, Starts (Midi.vec (heard m b) t) := Midi.starts_foldl b.1 hb hm

theorem starts_next {m : Midi.State} (hm : ∀ t, Starts (Midi.vec m t)) {b : List Midi.Op × Block} (hb : ∀ op ∈ b.1, 0 ≤ op.delay) (n : Nat) :
    ∀ t, Starts (Midi.vec (Midi.advanceTime (heard m b) n) t) :=
  Midi.starts_step (starts_heard hm hb) (.advance n) (le_refl _)

theorem starts_after {m : Midi.State} (hm : ∀ t, Starts (Midi.vec m t)) (bs : List (List Midi.Op × Block)) (hb : Timed bs) :
    ∀ t, Starts (Midi.vec (midiAfter m bs) t) := by
  induction bs generalizing m with
  | nil => exact hm
  | cons b bs ih => exact ih (starts_next hm (hb b (by simp)) _) (fun x hx => hb x (by simp [hx]))

theorem render_fade {c : Const} {m : Midi.State} (hm : ∀ t, Starts (Midi.vec m t)) {v : Voice} {b : Block} {r : Out × Voice}
    (h : render c m v b = some r) :
    r.1.fade = (Smoother.process c.fadeFrames v.fade ((List.range b.size).map (fadeAt c m b.size)) (single c m)).1 ∧
    r.2.fade = (Smoother.process c.fadeFrames v.fade ((List.range b.size).map (fadeAt c m b.size)) (single c m)).2 ∧
    r.1.level = List.zipWith (· * ·) r.1.fade (amplitudeEnvelope c v.gain b).1 ∧ r.2.gain = (amplitudeEnvelope c v.gain b).2 := by
  unfold render at h
  simp only [Option.bind_eq_some_iff] at h
  obtain ⟨p, _, h⟩ := h
  rw [fadeInput_eq c m (fun cc => hm (.cc cc))] at h
  simp only [Option.map_some, Option.some.injEq] at h
  subst h
  exact ⟨rfl, rfl, rfl, rfl⟩

theorem session_fade {c : Const} (bs : List (List Midi.Op × Block)) : ∀ {m : Midi.State} (_ : ∀ t, Starts (Midi.vec m t)) {v : Voice}
    (_ : Timed bs) {outs : List Out}, session c m v bs = some outs →
    outs.flatMap (·.fade) = (Smoother.run c.fadeFrames v.fade (inputs c m bs)).1 := by
  induction bs with
  | nil => intro m hm v hb outs h; simp only [session, Option.some.injEq] at h; subst h; rfl
  | cons b bs ih =>
    intro m hm v hb outs h
    obtain ⟨ops, b⟩ := b
    simp only [session, Option.bind_eq_some_iff, Option.map_eq_some_iff] at h
    obtain ⟨r, hr, os, hos, rfl⟩ := h
    have hh := starts_heard hm (hb (ops, b) (by simp))
    obtain ⟨f1, f2, _, _⟩ := render_fade hh hr
    have := ih (starts_next hm (hb (ops, b) (by simp)) _) (fun x hx => hb x (by simp [hx])) hos
    simp only [List.flatMap_cons, inputs, Smoother.run]
    rw [this, f1, f2]

theorem smoother_run_append (sf : Int) (s : Smoother.State) (xs ys : List (List ℚ × Bool)) :
    Smoother.run sf s (xs ++ ys) = ((Smoother.run sf s xs).1 ++ (Smoother.run sf (Smoother.run sf s xs).2 ys).1,
      (Smoother.run sf (Smoother.run sf s xs).2 ys).2) := by
  induction xs generalizing s with
  | nil => rfl
  | cons x xs ih => simp only [List.cons_append, Smoother.run, ih, List.append_assoc]

theorem inputs_append (c : Const) (m : Midi.State) (xs ys : List (List Midi.Op × Block)) :
    inputs c m (xs ++ ys) = inputs c m xs ++ inputs c (midiAfter m xs) ys := by
  induction xs generalizing m with
  | nil => rfl
  | cons x xs ih => simp only [List.cons_append, inputs, midiAfter, ih]

theorem fade_length {c : Const} (bs : List (List Midi.Op × Block)) : ∀ {m : Midi.State} (_ : ∀ t, Starts (Midi.vec m t)) {v : Voice}
    (_ : Timed bs) {outs : List Out}, session c m v bs = some outs →
    outs.map (fun o => o.fade.length) = bs.map (fun b => b.2.size) ∧ outs.length = bs.length := by
  induction bs with
  | nil => intro m hm v hb outs h; simp only [session, Option.some.injEq] at h; subst h; exact ⟨rfl, rfl⟩
  | cons b bs ih =>
    intro m hm v hb outs h
    obtain ⟨ops, b⟩ := b
    simp only [session, Option.bind_eq_some_iff, Option.map_eq_some_iff] at h
    obtain ⟨r, hr, os, hos, rfl⟩ := h
    have hh := starts_heard hm (hb (ops, b) (by simp))
    obtain ⟨f1, _, _, _⟩ := render_fade hh hr
    have := ih (starts_next hm (hb (ops, b) (by simp)) _) (fun x hx => hb x (by simp [hx])) hos
    refine ⟨?_, by simp [this.2]⟩
    rw [List.map_cons, List.map_cons, this.1, f1, Smoother.smoother_length]
    simp

/-- A message leaves a controller alone. -/
def Leaves (cc : Nat) (op : Midi.Op) : Prop := ∀ s, (Midi.step s op).cc cc = s.cc cc

theorem leaves_all {cc : Nat} (ops : List Midi.Op) (h : ∀ op ∈ ops, Leaves cc op) (m : Midi.State) : (ops.foldl Midi.step m).cc cc = m.cc cc := by
  induction ops generalizing m with
  | nil => rfl
  | cons op ops ih => rw [List.foldl_cons, ih (fun o ho => h o (by simp [ho])), h op (by simp)]

/-- After a block each controller has one event, with its last value. -/
theorem advance_cc {m : Midi.State} (hm : ∀ t, Starts (Midi.vec m t)) (n cc : Nat) :
    ((Midi.advanceTime m n).cc cc).length = 1 ∧ ccValue (Midi.advanceTime m n) cc = ccValue m cc := by
  obtain ⟨_, v, t, hv⟩ := hm (.cc cc)
  have hne : m.cc cc ≠ [] := by
    have : m.cc cc = ⟨0, v⟩ :: t := hv
    rw [this]; simp
  obtain ⟨w, h1, _, h3⟩ := Midi.flushVector_eq hne
  have e : (Midi.advanceTime m n).cc cc = [⟨0, w⟩] := h3
  refine ⟨by rw [e]; rfl, ?_⟩
  unfold ccValue Midi.getCCValue
  rw [e, h1]; rfl

/-- Every crossfade controller has one event, with the value `w`. -/
def Quiet (c : Const) (m : Midi.State) (w : Nat → ℚ) : Prop := ∀ f ∈ c.fades, (m.cc f.cc).length = 1 ∧ ccValue m f.cc = w f.cc

theorem quiet_heard {c : Const} {m : Midi.State} {w : Nat → ℚ} (h : Quiet c m w) {ops : List Midi.Op}
    (hs : ∀ op ∈ ops, ∀ f ∈ c.fades, Leaves f.cc op) : Quiet c (ops.foldl Midi.step m) w := by
  intro f hf
  have e := leaves_all ops (fun op ho => hs op ho f hf) m
  have := h f hf
  unfold ccValue Midi.getCCValue at this ⊢
  rw [e]; exact this

theorem quiet_fadeAt {c : Const} {m : Midi.State} {w : Nat → ℚ} (h : Quiet c m w) (n i : Nat) :
    fadeAt c m n i = (c.fades.map fun f => f.gain (w f.cc)).prod ∧ single c m = true := by
  have hs : single c m = true := by
    unfold single
    rw [List.all_eq_true]
    intro f hf
    simpa using (h f hf).1
  refine ⟨?_, hs⟩
  rw [fadeAt_single hs, fadeValue_eq]
  congr 1
  apply List.map_congr_left
  intro f hf
  rw [(h f hf).2]

theorem quiet_inputs {c : Const} {w : Nat → ℚ} (bs : List (List Midi.Op × Block)) : ∀ {m : Midi.State} (_ : ∀ t, Starts (Midi.vec m t))
    (_ : Timed bs) (_ : Quiet c m w) (_ : ∀ b ∈ bs, ∀ op ∈ b.1, ∀ f ∈ c.fades, Leaves f.cc op),
    ∀ p ∈ inputs c m bs, ∀ x ∈ p.1, x = (c.fades.map fun f => f.gain (w f.cc)).prod := by
  induction bs with
  | nil => intro m hm hb hq hs p hp; simp [inputs] at hp
  | cons b bs ih =>
    intro m hm hb hq hs p hp
    have hq' := quiet_heard hq (hs b (by simp))
    simp only [inputs, List.mem_cons] at hp
    rcases hp with rfl | hp
    · intro x hx
      obtain ⟨i, _, rfl⟩ := List.mem_map.mp hx
      exact (quiet_fadeAt hq' _ _).1
    · refine ih (starts_next hm (hb b (by simp)) _) (fun x hx => hb x (by simp [hx])) ?_ (fun x hx => hs x (by simp [hx])) p hp
      intro f hf
      have := advance_cc (starts_heard hm (hb b (by simp))) b.2.size f.cc
      exact ⟨this.1, this.2.trans (hq' f hf).2⟩

theorem quiet_run {v : ℚ} {sf : Int} (bs : List (List ℚ × Bool)) (h : ∀ p ∈ bs, ∀ x ∈ p.1, x = v) :
    ∀ y ∈ (Smoother.run sf (Smoother.reset v) bs).1, y = v := by
  intro y hy
  have := Smoother.smoother_stays_between sf v v v bs ⟨le_refl _, le_refl _⟩ (fun b hb x hx => by rw [h b hb x hx]; exact ⟨le_refl _, le_refl _⟩) y hy
  exact le_antisymm this.2 this.1

end Verif.Render
