import Verif.EgNote.Model
import Verif.CCMap.Props
import Verif.Curve.Props
import Verif.Midi.Until
import Verif.Adsr.Seconds

/-! C132: the stages of the envelope of a note follow its velocity and the controllers at its start. -/
namespace Verif.EgNote

/-! ### Specification -/

/-- The last of the values that some opcodes of a list give, or a default. -/
def last {α : Type} (f : Setting → Option α) (dflt : α) (l : List Setting) : α := (l.filterMap f).getLastD dflt

/-- The value of the stage in the file. -/
def baseOf : Setting → Option ℚ
  | .base v => some v
  | _ => none

/-- The change at full velocity. -/
def velOf : Setting → Option ℚ
  | .vel v => some v
  | _ => none

/-- The amount for a controller. -/
def amountOf (n : Nat) : Setting → Option ℚ
  | .cc k v => if k = n then some v else none
  | _ => none

/-- The curve for a controller. -/
def curveOf (n : Nat) : Setting → Option Nat
  | .curve k c => if k = n then some c else none
  | _ => none

/-- What the file asks for a stage: its value, changed by the velocity and by the 512 controllers, whose values are `x`, each shaped by its
curve (`Y c` is the curve of number `c`) and scaled by its amount. -/
def wanted (base0 : ℚ) (l : List Setting) (Y : Nat → ℚ → ℚ) (x : Nat → ℚ) (velocity : ℚ) : ℚ :=
  last baseOf base0 l + velocity * last velOf 0 l +
    ((List.range 512).map fun n => last (amountOf n) 0 l * Y (last (curveOf n) 0 l) (x n)).sum

/-- The curve of a number in the instrument. -/
def shape (dflt : Curve.Points) (cs : Curve.CurveSet Curve.Points) (c : Nat) (x : ℚ) : ℚ := (curveValue dflt cs c x).getD 0

/-- The value of a controller: the last one received. -/
def value (m : Midi.State) (n : Nat) : ℚ := (Midi.getCCValue m n).getD 0

/-! ### Lemmas -/

theorem last_append {α : Type} (f : Setting → Option α) (dflt : α) (l : List Setting) (s : Setting) :
    last f dflt (l ++ [s]) = (f s).getD (last f dflt l) := by
  unfold last
  rw [List.filterMap_append]
  cases h : f s with
  | none => simp [h]
  | some a => simp [h]

/-- What the opcodes built. -/
structure Built (base0 : ℚ) (l : List Setting) (s : Stage) : Prop where
  base : s.base = last baseOf base0 l
  vel : s.vel = last velOf 0 l
  sorted : CCMap.Sorted s.mods
  dflt : s.mods.dflt = (0, 0)
  keys : ∀ p ∈ s.mods.items, 0 ≤ p.1 ∧ p.1 < 512
  mods : ∀ n : Nat, n < 512 → (CCMap.assoc s.mods.items n).getD (0, 0) = (last (amountOf n) 0 l, last (curveOf n) 0 l)

theorem keys_iff {V : Type} (l : List (Int × V)) (k : Int) : (CCMap.assoc l k).isSome = true ↔ ∃ p ∈ l, p.1 = k := by
  unfold CCMap.assoc
  rw [Option.isSome_map, List.find?_isSome]
  simp

theorem update_keys {V : Type} {m m' : CCMap.M V} {cc : Int} {f : V → V} (h : ∀ k, CCMap.assoc m'.items k = CCMap.specStep m.dflt (CCMap.assoc m.items) (cc, f) k)
    (P : Int → Prop) (hm : ∀ p ∈ m.items, P p.1) (hc : P cc) : ∀ p ∈ m'.items, P p.1 := by
  intro p hp
  have h1 := (keys_iff m'.items p.1).mpr ⟨p, hp, rfl⟩
  rw [h] at h1
  unfold CCMap.specStep at h1
  simp only at h1
  split at h1
  · rename_i e; rw [e]; exact hc
  · obtain ⟨q, hq, e⟩ := (keys_iff _ _).mp h1
    rw [← e]; exact hm q hq

theorem built_read (base0 : ℚ) (l : List Setting) : Built base0 l (Stage.read base0 l) := by
  induction l using List.reverseRecOn with
  | nil =>
    refine ⟨rfl, rfl, by simp [CCMap.Sorted, Stage.read, Stage.new, CCMap.empty], rfl, by simp [Stage.read, Stage.new, CCMap.empty], fun n _ => rfl⟩
  | append_singleton l s ih =>
    have e : Stage.read base0 (l ++ [s]) = (Stage.read base0 l).set s := by unfold Stage.read; rw [List.foldl_append]; rfl
    rw [e]
    generalize Stage.read base0 l = st at ih ⊢
    cases s with
    | base v =>
      refine ⟨?_, ?_, ih.sorted, ih.dflt, ih.keys, fun n hn => ?_⟩
      · rw [last_append]; rfl
      · rw [last_append]; exact ih.vel
      · rw [last_append, last_append]; exact ih.mods n hn
    | vel v =>
      refine ⟨?_, ?_, ih.sorted, ih.dflt, ih.keys, fun n hn => ?_⟩
      · rw [last_append]; exact ih.base
      · rw [last_append]; rfl
      · rw [last_append, last_append]; exact ih.mods n hn
    | cc k v =>
      simp only [Stage.set]
      split
      · rename_i hk
        refine ⟨by rw [last_append]; exact ih.base, by rw [last_append]; exact ih.vel, ih.sorted, ih.dflt, ih.keys, fun n hn => ?_⟩
        rw [last_append, last_append]
        simp only [amountOf, curveOf]
        rw [if_neg (by omega)]
        exact ih.mods n hn
      · rename_i hk
        obtain ⟨m', h1, h2, h3, h4⟩ := CCMap.update_spec st.mods ih.sorted (k : Int) (fun p => (v, p.2))
        rw [h1]
        refine ⟨by rw [last_append]; exact ih.base, by rw [last_append]; exact ih.vel, h2, by simp only [Option.getD_some]; rw [h3, ih.dflt], ?_, fun n hn => ?_⟩
        · exact update_keys h4 (fun q => 0 ≤ q ∧ q < 512) ih.keys (by omega)
        · simp only [Option.getD_some]
          rw [h4, last_append, last_append]
          unfold CCMap.specStep
          simp only [amountOf, curveOf]
          have := ih.mods n hn
          by_cases hkn : k = n
          · subst hkn
            rw [if_pos rfl, if_pos rfl, ih.dflt, this]; rfl
          · rw [if_neg (by omega), if_neg hkn]; exact this
    | curve k c =>
      simp only [Stage.set]
      split
      · rename_i hk
        refine ⟨by rw [last_append]; exact ih.base, by rw [last_append]; exact ih.vel, ih.sorted, ih.dflt, ih.keys, fun n hn => ?_⟩
        rw [last_append, last_append]
        simp only [amountOf, curveOf]
        rw [if_neg (by omega)]
        exact ih.mods n hn
      · rename_i hk
        obtain ⟨m', h1, h2, h3, h4⟩ := CCMap.update_spec st.mods ih.sorted (k : Int) (fun p => (p.1, c))
        rw [h1]
        refine ⟨by rw [last_append]; exact ih.base, by rw [last_append]; exact ih.vel, h2, by simp only [Option.getD_some]; rw [h3, ih.dflt], ?_, fun n hn => ?_⟩
        · exact update_keys h4 (fun q => 0 ≤ q ∧ q < 512) ih.keys (by omega)
        · simp only [Option.getD_some]
          rw [h4, last_append, last_append]
          unfold CCMap.specStep
          simp only [amountOf, curveOf]
          have := ih.mods n hn
          by_cases hkn : k = n
          · subst hkn
            rw [if_pos rfl, if_pos rfl, ih.dflt, this]; rfl
          · rw [if_neg (by omega), if_neg hkn]; exact this

theorem sum_single (N k : Nat) (hk : k < N) (a : ℚ) : ((List.range N).map fun n => if n = k then a else 0).sum = a := by
  induction N with
  | zero => omega
  | succ N ih =>
    rw [List.range_succ, List.map_append, List.sum_append]
    by_cases h : k = N
    · subst h
      have : ((List.range k).map fun n => if n = k then a else 0).sum = 0 := by
        apply List.sum_eq_zero
        intro x hx
        obtain ⟨n, hn, rfl⟩ := List.mem_map.mp hx
        rw [if_neg (by have := List.mem_range.mp hn; omega)]
      rw [this]; simp
    · rw [ih (by omega)]
      simp [Ne.symm h]

/-- The sum over the entries of a sorted map is the sum over all numbers. -/
theorem items_sum {V : Type} (N : Nat) (g : Nat → V → ℚ) (items : List (Int × V)) (hs : items.Pairwise (fun a b => a.1 < b.1))
    (hk : ∀ p ∈ items, 0 ≤ p.1 ∧ p.1 < N) :
    (items.map fun p => g p.1.toNat p.2).sum = ((List.range N).map fun (n : Nat) => (CCMap.assoc items (n : Int)).elim 0 (g n)).sum := by
  induction items with
  | nil => simp [CCMap.assoc]
  | cons p items ih =>
    obtain ⟨h1, h2⟩ := List.pairwise_cons.mp hs
    have hp := hk p (by simp)
    rw [List.map_cons, List.sum_cons, ih h2 (fun q hq => hk q (by simp [hq])), ← sum_single N p.1.toNat (by omega) (g p.1.toNat p.2), ← List.sum_map_add]
    congr 1
    apply List.map_congr_left
    intro n hn
    unfold CCMap.assoc
    by_cases h : p.1 = (n : Int)
    · have hn' : n = p.1.toNat := by omega
      rw [if_pos hn', List.find?_cons_of_pos (by simp [h])]
      have : items.find? (fun d => d.1 == (n : Int)) = none := by
        rw [List.find?_eq_none]
        intro q hq
        have := h1 q hq
        simp only [beq_iff_eq]; omega
      rw [this, ← hn']
      simp
    · rw [if_neg (by omega), List.find?_cons_of_neg (by simpa using h)]
      simp

theorem at_latest {m : Midi.State} {n : Nat} {d : Int} (h : Midi.Until d (m.cc n)) : Midi.getCCValueAt m n d = some (value m n) := by
  obtain ⟨⟨hs, hne⟩, hle⟩ := h
  unfold Midi.getCCValueAt Midi.valueAt value Midi.getCCValue
  rw [Midi.lowerBound_sorted hs]
  generalize m.cc n = l at *
  obtain ⟨k1, k2⟩ := Midi.takeWhile_length_of_sorted hs d
  have hb : ∃ v, Midi.backValue l = some v := by
    unfold Midi.backValue
    cases hg : l.getLast? with
    | none => rw [List.getLast?_eq_none_iff] at hg; exact absurd hg hne
    | some e => exact ⟨e.value, rfl⟩
  obtain ⟨v, hv⟩ := hb
  simp only
  split
  · rename_i e he
    rw [hv]
    simp only [Option.getD_some, Option.some.injEq]
    unfold Midi.backValue at hv
    rw [Option.map_eq_some_iff] at hv
    obtain ⟨b, hb, rfl⟩ := hv
    obtain ⟨q1, q2⟩ := Midi.back_is_latest hs hb
    obtain ⟨hi, he'⟩ := List.getElem?_eq_some_iff.mp he
    have hge : d ≤ e.delay := by
      rw [← he']
      exact k2 _ hi (le_refl _)
    have h1 := hle b q1
    have h2 := q2 e (he' ▸ List.getElem_mem hi)
    have heq : e.delay = b.delay := by have := hle e (he' ▸ List.getElem_mem hi); omega
    obtain ⟨j, hj, hbj⟩ := List.mem_iff_getElem.mp q1
    have hp := List.pairwise_iff_getElem.mp hs
    rcases Nat.lt_trichotomy (l.takeWhile (Midi.before d)).length j with h | h | h
    · have := hp _ j hi hj h; rw [he', hbj] at this; omega
    · subst h; rw [← he', ← hbj]
    · have := hp j _ hj hi h; rw [he', hbj] at this; omega
  · rw [hv]; rfl

theorem curve_some (dflt : Curve.Points) (cs : Curve.CurveSet Curve.Points) (c : Nat) (x : ℚ) : curveValue dflt cs c x = some (shape dflt cs c x) := by
  obtain ⟨y, _, h, _⟩ := Curve.eval_defined (cs.get dflt c) (x * 127)
  unfold shape curveValue Curve.evalNormalized
  rw [h]; rfl

theorem addMods_eq (dflt : Curve.Points) (cs : Curve.CurveSet Curve.Points) {m : Midi.State} {d : Int} (hm : ∀ n, Midi.Until d (m.cc n))
    (items : List (Int × ℚ × Nat)) : ∀ acc, addMods dflt cs m d items acc =
      some (acc + (items.map fun p => p.2.1 * shape dflt cs p.2.2 (value m p.1.toNat)).sum) := by
  induction items with
  | nil => intro acc; simp [addMods]
  | cons p items ih =>
    intro acc
    obtain ⟨cc, a, c⟩ := p
    simp only [addMods]
    rw [at_latest (hm _), Option.bind_some, curve_some, Option.bind_some, ih, List.map_cons, List.sum_cons]
    congr 1
    ring

theorem mods_sum {base0 : ℚ} {l : List Setting} {s : Stage} (h : Built base0 l s) (dflt : Curve.Points) (cs : Curve.CurveSet Curve.Points) (m : Midi.State) :
    (s.mods.items.map fun p => p.2.1 * shape dflt cs p.2.2 (value m p.1.toNat)).sum =
      ((List.range 512).map fun n => last (amountOf n) 0 l * shape dflt cs (last (curveOf n) 0 l) (value m n)).sum := by
  rw [items_sum 512 (fun n q => q.1 * shape dflt cs q.2 (value m n)) s.mods.items h.sorted h.keys]
  refine congrArg List.sum (List.map_congr_left fun n hn => ?_)
  have := h.mods n (List.mem_range.mp hn)
  cases ha : CCMap.assoc s.mods.items (n : Int) with
  | none =>
    rw [ha] at this
    simp only [Option.getD_none, Prod.mk.injEq] at this
    rw [← this.1]; simp
  | some q =>
    rw [ha] at this
    simp only [Option.getD_some] at this
    rw [this]; rfl

/-! ### The theorems -/

/-- **C132, a stage.** Whatever the opcodes for a stage and the history of messages: a note at frame `d` whose messages so far came in
order reads for the stage what the file asks for, with the controllers as last received. -/
theorem stage_value (dflt : Curve.Points) (cs : Curve.CurveSet Curve.Points) (base0 : ℚ) (l : List Setting) (pre : List Midi.Op) (len : Nat)
    (new : List Midi.Op) (d : Nat) (hnew : ∀ op ∈ new, op.delay ≤ d) (velocity : ℚ) :
    (Stage.read base0 l).get dflt cs (Midi.run (pre ++ .advance len :: new)) velocity d =
      some (wanted base0 l (shape dflt cs) (value (Midi.run (pre ++ .advance len :: new))) velocity) ∧
    (Stage.read base0 l).getStart dflt cs (Midi.run (pre ++ .advance len :: new)) d =
      some (wanted base0 l (shape dflt cs) (value (Midi.run (pre ++ .advance len :: new))) 0) := by
  have hm : ∀ n, Midi.Until (d : Int) ((Midi.run (pre ++ .advance len :: new)).cc n) := fun n => Midi.until_run (by omega) pre len new hnew (.cc n)
  have hb := built_read base0 l
  constructor
  · unfold Stage.get
    rw [addMods_eq dflt cs hm, mods_sum hb, hb.base, hb.vel]; rfl
  · unfold Stage.getStart
    rw [addMods_eq dflt cs hm, mods_sum hb, hb.base]
    unfold wanted
    rw [zero_mul, add_zero]

/-- The opcodes of an envelope, and the values its stages have without any. -/
structure Opcodes where
  delay : List Setting
  attack : List Setting
  hold : List Setting
  decay : List Setting
  sustain : List Setting
  release : List Setting
  start : List Setting
  release0 : ℚ := 0

/-- The description they build: all stages are 0 by default except the sustain level (EGDescription.h:54-60, Defaults.cpp:149-153) and,
for the amplitude, the release (Region.cpp:45). -/
def Opcodes.desc (o : Opcodes) : Desc :=
  { delay := Stage.read 0 o.delay
    attack := Stage.read 0 o.attack
    hold := Stage.read 0 o.hold
    decay := Stage.read 0 o.decay
    sustain := Stage.read 1 o.sustain
    release := Stage.read o.release0 o.release
    start := Stage.read 0 o.start }

/-- The shape the file asks for: times in seconds, negative ones counting as zero, levels limited to 0 to 1; `w` gives what it asks for
one stage at the velocity of the note, `w0` the same without velocity. -/
def asked (rate : ℚ → ℚ) (sr : ℚ) (d : Nat) (o : Opcodes) (w w0 : ℚ → List Setting → ℚ) : Adsr.Shape :=
  { delay := d + ⌊max 0 (w 0 o.delay) * sr⌋₊
    hold := ⌊max 0 (w 0 o.hold) * sr⌋₊
    start := max (min (w0 0 o.start) 1) 0
    step := if w 0 o.attack ≤ 0 then 1 else 1 / (sr * w 0 o.attack)
    rate := rate (w 0 o.decay)
    sustain := max (min (w 1 o.sustain) 1) 0 }

theorem samples_nat (sr : ℚ) (hsr : 0 < sr) (x : ℚ) : 0 ≤ Adsr.secondsToSamples sr x ∧ (Adsr.secondsToSamples sr x).toNat = ⌊max 0 x * sr⌋₊ := by
  unfold Adsr.secondsToSamples
  split
  · rename_i h
    rw [max_eq_left h, zero_mul]; simp
  · rename_i h
    have hx := not_le.mp h
    rw [max_eq_right hx.le]
    exact ⟨Int.floor_nonneg.mpr (mul_nonneg hx.le hsr.le), rfl⟩

/-- **C132, the note.** Whatever the opcodes of the envelope, the history of messages and the lengths of the blocks: a held note that
starts at frame `d` of a block follows the shape that the file asks for at its velocity, with the controllers as last received, until the
level is near the sustain level; then it stays near it. Decays are by `rate`, any function of the seconds to factors from 0 to 1. -/
theorem note_shape (rate : ℚ → ℚ) (hrate : ∀ x, 0 ≤ rate x ∧ rate x ≤ 1) (dflt : Curve.Points) (cs : Curve.CurveSet Curve.Points)
    (sr : ℚ) (hsr : 0 < sr) (o : Opcodes) (pre : List Midi.Op) (len : Nat) (new : List Midi.Op) (d : Nat) (hnew : ∀ op ∈ new, op.delay ≤ d)
    (m : Midi.State) (hm : m = Midi.run (pre ++ .advance len :: new)) (velocity : ℚ) (blocks : List Nat)
    (w w0 : ℚ → List Setting → ℚ) (hw : w = fun b l => wanted b l (shape dflt cs) (value m) velocity)
    (hw0 : w0 = fun b l => wanted b l (shape dflt cs) (value m) 0) (hsus : 32 / 10000 < w 1 o.sustain) :
    ∃ out, heldNote rate dflt cs m sr o.desc velocity d blocks = some out ∧ ∀ t y, out[t]? = some y →
      if t < (asked rate sr d o w w0).top ∨ (asked rate sr d o w w0).sustain + 1 / 1000 < (asked rate sr d o w w0).level t
      then y = (asked rate sr d o w w0).level t
      else (asked rate sr d o w w0).sustain - 1 / 1000 / (sr / 20) ≤ y ∧ y ≤ (asked rate sr d o w w0).sustain + 1 / 1000 := by
  have g : ∀ b l, (Stage.read b l).get dflt cs m velocity d = some (w b l) := by
    intro b l; rw [hm, hw, hm]; exact (stage_value dflt cs b l pre len new d hnew velocity).1
  have g0 : ∀ b l, (Stage.read b l).getStart dflt cs m d = some (w0 b l) := by
    intro b l; rw [hm, hw0, hm]; exact (stage_value dflt cs b l pre len new d hnew velocity).2
  unfold heldNote params Opcodes.desc
  simp only [g, g0, Option.bind_some, Option.map_some]
  refine ⟨_, rfl, fun t y hy => ?_⟩
  have hs := samples_nat sr hsr
  have := Adsr.held_shape sr hsr d
    { delay := Adsr.secondsToSamples sr (w 0 o.delay)
      attackStep := Adsr.secondsToLinRate sr (w 0 o.attack)
      decayRate := rate (w 0 o.decay)
      releaseRate := rate (w o.release0 o.release)
      hold := Adsr.secondsToSamples sr (w 0 o.hold)
      sustain := w 1 o.sustain
      start := w0 0 o.start }
    ⟨by
      show 0 < Adsr.secondsToLinRate sr (w 0 o.attack)
      unfold Adsr.secondsToLinRate
      split
      · norm_num
      · rename_i h
        have := mul_pos hsr (not_le.mp h)
        positivity, hrate _, hrate _⟩ (hs _).1 (hs _).1 hsus blocks t y hy
  have e : Adsr.shapeOf d
    { delay := Adsr.secondsToSamples sr (w 0 o.delay)
      attackStep := Adsr.secondsToLinRate sr (w 0 o.attack)
      decayRate := rate (w 0 o.decay)
      releaseRate := rate (w o.release0 o.release)
      hold := Adsr.secondsToSamples sr (w 0 o.hold)
      sustain := w 1 o.sustain
      start := w0 0 o.start } = asked rate sr d o w w0 := by
    unfold Adsr.shapeOf asked
    rw [(hs _).2, (hs _).2]
    rfl
  rw [e] at this
  exact this

/-! ### Cases -/

/-- A straight curve. -/
def straight : Curve.Points := fun i => i / 127

/-- An instrument without curves of its own. -/
def noCurves : Curve.CurveSet Curve.Points := { curves := [] }

/-- An attack that velocity shortens and controller 1 lengthens, and a sustain level. -/
def pad : Opcodes :=
  { delay := []
    attack := [.base (1 / 2), .vel (-1 / 4), .cc 1 3, .curve 1 2, .cc 1 1]
    hold := []
    decay := [.base (1 / 10)]
    sustain := [.base (1 / 2)]
    release := []
    start := [] }

/-- **C132, a changing envelope.** With `ampeg_dynamic` the stages are read again every 16 frames of a block, and the controllers then
have the value of the next message of the block, not the last one: here the attack read at frame 16 is that of the message at frame 40. -/
theorem dynamic_stage_violated : ∃ (l : List Setting) (ops : List Midi.Op),
    (Stage.read 0 l).get straight noCurves (Midi.run ops) 0 16 = some 2 ∧
    Midi.SignalAt ((Midi.run ops).cc 1) 16 0 ∧ wanted 0 l (shape straight noCurves) (fun _ => 0) 0 = 0 := by
  refine ⟨[.cc 1 2], [.advance 128, .cc 40 1 1], by decide +kernel, ⟨⟨0, 0⟩, by decide +kernel, by decide, rfl, ?_⟩, by decide +kernel⟩
  have : (Midi.run [.advance 128, .cc 40 1 1]).cc 1 = [⟨0, 0⟩, ⟨40, 1⟩] := by decide +kernel
  rw [this]
  intro e' he' hle
  simp only [List.mem_cons, List.not_mem_nil, or_false] at he'
  rcases he' with rfl | rfl
  · exact Int.le_refl _
  · simp at hle

/-- The controller at 1/127, then full within the block of the note, before it: the attack is 1/2 - 1/4 * 4/5 + 1 seconds. -/
example : (Stage.read 0 pad.attack).get straight noCurves (Midi.run [.cc 3 1 (1 / 127), .advance 128, .cc 7 1 1]) (4 / 5) 9 = some (13 / 10) := by
  decide +kernel

/-- It meets the conditions of `note_shape`. -/
example : (∀ op ∈ [Midi.Op.cc 7 1 1], op.delay ≤ (9 : Nat)) ∧ (32 / 10000 : ℚ) < wanted 1 pad.sustain (shape straight noCurves) (fun _ => 0) (4 / 5) := by
  constructor
  · intro op hop; simp only [List.mem_singleton] at hop; subst hop; decide
  · decide +kernel

/-- At 10 frames per second, started at frame 2: an attack of 13 frames, then a fast decay. -/
example : (List.range 18).map (asked (fun _ => 1 / 2) 10 2 pad (fun b l => wanted b l (shape straight noCurves) (fun n => if n = 1 then 1 else 0) (4 / 5))
      (fun b l => wanted b l (shape straight noCurves) (fun n => if n = 1 then 1 else 0) 0)).level =
      [0, 0, 1/13, 2/13, 3/13, 4/13, 5/13, 6/13, 7/13, 8/13, 9/13, 10/13, 11/13, 12/13, 1/2, 1/2, 1/2, 1/2] := by
  decide +kernel

end Verif.EgNote
