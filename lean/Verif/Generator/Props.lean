import Verif.Generator.Model
import Verif.Wavetable.Props
import Verif.Wavetable.Content
import Mathlib.Algebra.BigOperators.Field
import Mathlib.Data.List.GetD

/-!
# Voices that play oscillators

C129: what a note of an oscillator sounds like: one oscillator, a unison, ring or frequency modulation, for the whole note and
whatever the blocks.
-/
namespace Verif.Generator

open Verif.Wavetable

/-! ### Specification -/

/-- The frequency of a frame: the base frequency moved by the pitch in cents. -/
noncomputable def hertz (base : ℝ) (f : Frame) : ℝ := base * (2 : ℝ) ^ (f.cents / 1200)

/-- The ratio of an oscillator detuned by `d` cents in a frame: what modulates the detuning adds to it. -/
noncomputable def detuned (d : ℝ) (f : Frame) : ℝ := (2 : ℝ) ^ ((d + f.detune.getD 0) / 1200)

/-- The oscillators of a unison in cents: the first in tune, the next two at the ends, the others in pairs from the middle, a quarter
of the way each. -/
def spread (d : ℚ) (u : ℕ) : ℚ :=
  (if u % 2 = 1 then -1 else 1) * (if u = 0 then 0 else if u ≤ 2 then d else d * ((u - 1) / 2 : ℕ) / 4)

/-- The sound of one oscillator for the whole note: the waveform at the phase that the sum of all frequencies gives. -/
noncomputable def tone (c : Const) (wave : ℕ → ℕ → ℝ) (phase : ℝ) (l : List (ℝ × ℝ)) : List ℝ :=
  sounding c.wave.size wave c.quality c.interval phase l

/-- All frames of a note. -/
def frames (bs : List (List ℝ × List Frame)) : List Frame := (bs.map (·.2)).flatten

/-- The pitches and ratios of one oscillator over the note. -/
noncomputable def part (c : Const) (d : ℝ) (fs : List Frame) : List (ℝ × ℝ) := fs.map fun f => (hertz c.base f, detuned d f)

/-- The pitches of an oscillator in tune, which nothing detunes. -/
noncomputable def plain (c : Const) (fs : List Frame) : List (ℝ × ℝ) := fs.map fun f => (hertz c.base f, 1)

/-- No frame advances by 2^31 periods or more. -/
def Tame (c : Const) (l : List (ℝ × ℝ)) : Prop := ∀ fd ∈ l, Fits (fd.1 * (fd.2 * c.interval))

/-- Left out: waveforms that do not repeat (C107), frames with too many periods. -/
structure Good (c : Const) (wave : ℕ → ℕ → ℝ) : Prop where
  exact : c.r = id
  size : c.wave.size < 2 ^ 32
  repeats : Repeats c.wave wave

/-! ### Lemmas -/

theorem frequency_eq (base : ℝ) (f : Frame) : f.frequency base = hertz base f := rfl

theorem ratio_eq (d : ℝ) (f : Frame) : f.ratio (centsFactor d) = detuned d f := by
  unfold Frame.ratio detuned centsFactor
  cases f.detune with
  | none => simp
  | some m =>
    simp only [Option.getD_some]
    rw [← Real.rpow_add (by norm_num)]
    congr 1
    ring

theorem spread_eq (d : ℚ) (u : ℕ) : Wavetable.detune d u = spread d u := by
  unfold Wavetable.detune spread
  by_cases h0 : u = 0
  · subst h0; simp
  by_cases h1 : u = 1
  · subst h1; simp
  by_cases h2 : u = 2
  · subst h2; simp
  rw [if_neg h0, if_neg h1, if_neg h2, if_neg h0, if_neg (show ¬u ≤ 2 by omega)]
  split <;> ring

theorem sounding_append (size : ℕ) (wave : ℕ → ℕ → ℝ) (q : ℤ) (interval : ℝ) (l l' : List (ℝ × ℝ)) : ∀ p,
    sounding size wave q interval p (l ++ l') =
      sounding size wave q interval p l ++ sounding size wave q interval (p + elapsed interval l) l' := by
  induction l with
  | nil => intro p; simp [sounding, elapsed]
  | cons fd l ih =>
    intro p
    obtain ⟨f, d⟩ := fd
    simp only [List.cons_append, sounding, ih, elapsed, List.map_cons, List.sum_cons]
    rw [add_assoc]

theorem sounding_length (size : ℕ) (wave : ℕ → ℕ → ℝ) (q : ℤ) (interval : ℝ) (l : List (ℝ × ℝ)) : ∀ p,
    (sounding size wave q interval p l).length = l.length := by
  induction l with
  | nil => intro p; rfl
  | cons fd l ih => intro p; obtain ⟨f, d⟩ := fd; simp [sounding, ih]

theorem tone_append (c : Const) (wave : ℕ → ℕ → ℝ) (p : ℝ) (l l' : List (ℝ × ℝ)) :
    tone c wave p (l ++ l') = tone c wave p l ++ tone c wave (p + elapsed c.interval l) l' :=
  sounding_append _ _ _ _ _ _ _

theorem tone_length (c : Const) (wave : ℕ → ℕ → ℝ) (p : ℝ) (l : List (ℝ × ℝ)) : (tone c wave p l).length = l.length :=
  sounding_length _ _ _ _ _ _

theorem oscillator_tone {c : Const} {wave : ℕ → ℕ → ℝ} (g : Good c wave) (o : Oscillators) (u : ℕ) {p : ℝ}
    (hp : o.phase u = Int.fract p) {l : List (ℝ × ℝ)} (hl : Tame c l) :
    oscillator c o u l = some (tone c wave p l,
      { o with phase := Function.update o.phase u (Int.fract (p + elapsed c.interval l)) }) := by
  unfold oscillator
  rw [g.exact, hp, pitch_exact g.size g.repeats c.quality c.interval l p hl]
  rfl

theorem Tame.left {c : Const} {l l' : List (ℝ × ℝ)} (h : Tame c (l ++ l')) : Tame c l :=
  fun x hx => h x (List.mem_append_left _ hx)

theorem Tame.right {c : Const} {l l' : List (ℝ × ℝ)} (h : Tame c (l ++ l')) : Tame c l' :=
  fun x hx => h x (List.mem_append_right _ hx)

/-! ### One oscillator -/

theorem single_play {c : Const} {wave : ℕ → ℕ → ℝ} (g : Good c wave) (s : Settings) (hm : s.mode ≤ 0) (h1 : s.multi < 2)
    (bs : List (List ℝ × List Frame)) : ∀ (o : Oscillators) (p : ℝ), o.phase 0 = Int.fract p → Tame c (plain c (frames bs)) →
    play c s o bs = some (tone c wave p (plain c (frames bs)), tone c wave p (plain c (frames bs))) := by
  induction bs with
  | nil => intro o p _ _; rfl
  | cons b bs ih =>
    intro o p hp ht
    obtain ⟨junk, b⟩ := b
    have hf : frames ((junk, b) :: bs) = b ++ frames bs := rfl
    have hpl : plain c (b ++ frames bs) = plain c b ++ plain c (frames bs) := by unfold plain; rw [List.map_append]
    rw [hf, hpl] at ht
    rw [hf, hpl, tone_append]
    have ho : (oscillator c o 0 (b.map fun f => (f.frequency c.base, 1))) = _ := oscillator_tone g o 0 hp ht.left
    unfold play fill
    rw [if_pos ⟨hm, h1⟩, ho]
    simp only [Option.map_some, Option.bind_some]
    rw [ih _ (p + elapsed c.interval (plain c b)) (by simp only; rw [Function.update_self]; rfl) ht.right]
    rfl

/-! ### Unison -/

/-- The weighted sum of the first `m` of some sounds of `n` frames. -/
noncomputable def mix (w : ℕ → ℝ) (S : ℕ → List ℝ) (m n : ℕ) : List ℝ :=
  (List.range n).map fun i => ∑ u ∈ Finset.range m, w u * (S u).getD i 0

theorem mix_append (w : ℕ → ℝ) (S T : ℕ → List ℝ) (m n k : ℕ) (hS : ∀ u, (S u).length = n) :
    mix w (fun u => S u ++ T u) m (n + k) = mix w S m n ++ mix w T m k := by
  unfold mix
  rw [List.range_add, List.map_append, List.map_map]
  congr 1
  · apply List.map_congr_left
    intro i hi
    apply Finset.sum_congr rfl
    intro u _
    congr 1
    rw [List.getD_append _ _ _ _ (by rw [hS u]; exact List.mem_range.mp hi)]
  · apply List.map_congr_left
    intro i hi
    apply Finset.sum_congr rfl
    intro u _
    congr 1
    simp only
    rw [List.getD_append_right _ _ _ _ (by rw [hS u]; omega), hS u, Nat.add_sub_cancel_left]

theorem mix_first (w : ℕ → ℝ) (S : ℕ → List ℝ) (n : ℕ) (hS : (S 0).length = n) : mix w S 1 n = (S 0).map (w 0 * ·) := by
  unfold mix
  apply List.ext_getElem
  · simp [hS]
  · intro i h1 h2
    have hi : i < (S 0).length := by simpa using h2
    simp [List.getElem?_eq_getElem hi]

theorem mix_next (w : ℕ → ℝ) (S : ℕ → List ℝ) (m n : ℕ) (hS : (S m).length = n) :
    mix w S (m + 1) n = List.zipWith (fun y z => z + w m * y) (S m) (mix w S m n) := by
  unfold mix
  apply List.ext_getElem
  · simp [hS]
  · intro i h1 h2
    have hi : i < n := by simpa using h1
    simp [Finset.sum_range_succ, List.getElem?_eq_getElem (show i < (S m).length by omega)]

theorem unison_loop {c : Const} {wave : ℕ → ℕ → ℝ} (g : Good c wave) (b : List Frame) (junk : List ℝ) (o : Oscillators)
    (P : ℕ → ℝ) (k : ℕ) (hP : ∀ u < k, o.phase u = Int.fract (P u))
    (ht : ∀ u < k, Tame c (b.map fun f => (f.frequency c.base, f.ratio (o.ratio u)))) :
    (List.range k).foldl (unisonPass c b) (some ((junk, junk), o)) =
      some (if k = 0 then (junk, junk) else
          (mix (fun u => o.left u) (fun u => tone c wave (P u) (b.map fun f => (f.frequency c.base, f.ratio (o.ratio u)))) k b.length,
           mix (fun u => o.right u) (fun u => tone c wave (P u) (b.map fun f => (f.frequency c.base, f.ratio (o.ratio u)))) k b.length),
        { o with phase := fun u => if u < k then
            Int.fract (P u + elapsed c.interval (b.map fun f => (f.frequency c.base, f.ratio (o.ratio u)))) else o.phase u }) := by
  induction k with
  | zero => simp
  | succ k ih =>
    rw [List.range_succ, List.foldl_append, ih (fun u hu => hP u (by omega)) (fun u hu => ht u (by omega))]
    simp only [List.foldl_cons, List.foldl_nil, unisonPass, Option.bind_some]
    have hlen : ∀ u, (tone c wave (P u) (b.map fun f => (f.frequency c.base, f.ratio (o.ratio u)))).length = b.length := by
      intro u; rw [tone_length, List.length_map]
    rw [oscillator_tone g _ k (p := P k) (by simp [hP k (by omega)]) (ht k (by omega))]
    simp only [Option.map_some]
    congr 1
    refine Prod.ext ?_ ?_
    · rw [if_neg (Nat.succ_ne_zero k)]
      by_cases hk : k = 0
      · subst hk
        rw [if_pos rfl, mix_first _ _ _ (hlen 0), mix_first _ _ _ (hlen 0)]
      · rw [if_neg hk, if_neg hk, mix_next _ _ _ _ (hlen k), mix_next _ _ _ _ (hlen k)]
    · simp only [Oscillators.mk.injEq, true_and]
      funext u
      by_cases hu : u = k
      · subst hu; rw [Function.update_self, if_pos (by omega)]
      · rw [Function.update_of_ne hu]
        by_cases hu' : u < k
        · rw [if_pos hu', if_pos (by omega)]
        · rw [if_neg hu', if_neg (by omega)]

theorem unison_play {c : Const} {wave : ℕ → ℕ → ℝ} (g : Good c wave) (s : Settings) (hm : s.mode ≤ 0) (h3 : 3 ≤ s.multi)
    (bs : List (List ℝ × List Frame)) : ∀ (o : Oscillators) (P : ℕ → ℝ), 0 < o.size → (∀ u < o.size, o.phase u = Int.fract (P u)) →
    (∀ u < o.size, Tame c ((frames bs).map fun f => (f.frequency c.base, f.ratio (o.ratio u)))) →
    play c s o bs = some
      (mix (fun u => o.left u) (fun u => tone c wave (P u) ((frames bs).map fun f => (f.frequency c.base, f.ratio (o.ratio u))))
        o.size (frames bs).length,
       mix (fun u => o.right u) (fun u => tone c wave (P u) ((frames bs).map fun f => (f.frequency c.base, f.ratio (o.ratio u))))
        o.size (frames bs).length) := by
  induction bs with
  | nil => intro o P _ _ _; rfl
  | cons b bs ih =>
    intro o P h0 hP ht
    obtain ⟨junk, b⟩ := b
    have hf : frames ((junk, b) :: bs) = b ++ frames bs := rfl
    rw [hf] at ht ⊢
    simp only [List.map_append] at ht
    unfold play fill
    rw [if_neg (by omega), if_pos ⟨hm, h3⟩, unison_loop g b junk o P o.size hP (fun u hu => (ht u hu).left)]
    simp only [Option.bind_some]
    let ph : ℕ → ℝ := fun u => if u < o.size then
      Int.fract (P u + elapsed c.interval (b.map fun f => (f.frequency c.base, f.ratio (o.ratio u)))) else o.phase u
    rw [ih { o with phase := ph }
      (fun u => P u + elapsed c.interval (b.map fun f => (f.frequency c.base, f.ratio (o.ratio u)))) h0
      (fun u hu => if_pos hu) (fun u hu => (ht u hu).right)]
    rw [if_neg (by omega)]
    simp only [Option.map_some, List.map_append, tone_append, List.length_append]
    rw [mix_append _ _ _ _ _ _ (fun u => by rw [tone_length, List.length_map]),
      mix_append _ _ _ _ _ _ (fun u => by rw [tone_length, List.length_map])]

/-! ### Ring and frequency modulation -/

/-- The modulator: an oscillator of its own, times the depth. -/
noncomputable def modulator (c : Const) (wave : ℕ → ℕ → ℝ) (depth d phase : ℝ) (fs : List Frame) : List ℝ :=
  List.zipWith (fun x f => x * (depth * f.depth.getD 1)) (tone c wave phase (part c d fs)) fs

/-- The carrier of frequency modulation: its pitch moves by the modulator times its frequency. -/
noncomputable def moved (c : Const) (m : List ℝ) (fs : List Frame) : List (ℝ × ℝ) :=
  List.zipWith (fun y f => (hertz c.base f * (1 + y), 1)) m fs

theorem gain_eq (depth : ℝ) (f : Frame) : f.gain depth = depth * f.depth.getD 1 := by
  unfold Frame.gain
  split
  · rfl
  · rename_i h; rw [not_not.mp h]

theorem part_append (c : Const) (d : ℝ) (a b : List Frame) : part c d (a ++ b) = part c d a ++ part c d b := by
  unfold part; rw [List.map_append]

theorem part_length (c : Const) (d : ℝ) (a : List Frame) : (part c d a).length = a.length := by
  unfold part; rw [List.length_map]

theorem modulator_length (c : Const) (wave : ℕ → ℕ → ℝ) (depth d p : ℝ) (fs : List Frame) :
    (modulator c wave depth d p fs).length = fs.length := by
  unfold modulator; rw [List.length_zipWith, tone_length, part_length, min_self]

theorem modulator_append (c : Const) (wave : ℕ → ℕ → ℝ) (depth d p : ℝ) (a b : List Frame) :
    modulator c wave depth d p (a ++ b) =
      modulator c wave depth d p a ++ modulator c wave depth d (p + elapsed c.interval (part c d a)) b := by
  unfold modulator
  rw [part_append, tone_append, List.zipWith_append (by rw [tone_length, part_length])]

theorem moved_append (c : Const) (m m' : List ℝ) (a b : List Frame) (h : m.length = a.length) :
    moved c (m ++ m') (a ++ b) = moved c m a ++ moved c m' b := by
  unfold moved; rw [List.zipWith_append h]

theorem modulator_block {c : Const} {wave : ℕ → ℕ → ℝ} (s : Settings) (d p : ℝ) (b : List Frame) :
    List.zipWith (fun x f => x * f.gain s.depth) (tone c wave p (part c d b)) b = modulator c wave s.depth d p b := by
  unfold modulator; simp only [gain_eq]

theorem part_block (c : Const) (d : ℝ) (b : List Frame) :
    (b.map fun f => (f.frequency c.base, f.ratio (centsFactor d))) = part c d b := by
  unfold part; simp only [ratio_eq, frequency_eq]

theorem moved_block (c : Const) (m : List ℝ) (b : List Frame) :
    List.zipWith (fun y f => (f.frequency c.base + y * f.frequency c.base, (1 : ℝ))) m b = moved c m b := by
  unfold moved
  congr 1
  funext y f
  rw [frequency_eq]
  congr 1
  ring

theorem ring_play {c : Const} {wave : ℕ → ℕ → ℝ} (g : Good c wave) (s : Settings) (hm : s.mode = 0) (h2 : s.multi = 2) (d : ℝ)
    (bs : List (List ℝ × List Frame)) : ∀ (o : Oscillators) (p q : ℝ), o.phase 0 = Int.fract p → o.phase 1 = Int.fract q →
    o.ratio 1 = centsFactor d → Tame c (plain c (frames bs)) → Tame c (part c d (frames bs)) →
    play c s o bs = some
      (List.zipWith (· * ·) (modulator c wave s.depth d q (frames bs)) (tone c wave p (plain c (frames bs))),
       List.zipWith (· * ·) (modulator c wave s.depth d q (frames bs)) (tone c wave p (plain c (frames bs)))) := by
  induction bs with
  | nil => intro o p q _ _ _ _ _; rfl
  | cons b bs ih =>
    intro o p q hp hq hr ht ht'
    obtain ⟨junk, b⟩ := b
    have hf : frames ((junk, b) :: bs) = b ++ frames bs := rfl
    have hpl : plain c (b ++ frames bs) = plain c b ++ plain c (frames bs) := by unfold plain; rw [List.map_append]
    rw [hf] at ht ht' ⊢
    rw [hpl] at ht ⊢
    rw [part_append] at ht'
    have ho := oscillator_tone g o 1 hq ht'.left
    rw [← part_block, ← hr] at ho
    unfold play fill
    rw [if_neg (by omega), if_neg (by omega), ho]
    simp only [Option.bind_some]
    rw [if_neg (by omega)]
    have hc := oscillator_tone g
      { o with phase := Function.update o.phase 1 (Int.fract (q + elapsed c.interval (b.map fun f => (f.frequency c.base, f.ratio (o.ratio 1))))) }
      0 (p := p) (l := plain c b) (by simp only; rw [Function.update_of_ne (by norm_num)]; exact hp) ht.left
    rw [show (b.map fun f => (f.frequency c.base, (1 : ℝ))) = plain c b from rfl, hc]
    simp only [Option.map_some, Option.bind_some]
    let ph : ℕ → ℝ := Function.update (Function.update o.phase 1
      (Int.fract (q + elapsed c.interval (b.map fun f => (f.frequency c.base, f.ratio (o.ratio 1)))))) 0
        (Int.fract (p + elapsed c.interval (plain c b)))
    have hi := ih { o with phase := ph }
      (p + elapsed c.interval (plain c b)) (q + elapsed c.interval (part c d b)) (by simp only [ph]; rw [Function.update_self])
      (by simp only [ph]; rw [Function.update_of_ne (by norm_num), Function.update_self, hr, part_block]) hr ht.right ht'.right
    rw [hi]
    simp only [Option.map_some]
    rw [hr, part_block, modulator_block, modulator_append, tone_append, List.zipWith_append]
    rw [modulator_length, tone_length, plain, List.length_map]

theorem fm_play {c : Const} {wave : ℕ → ℕ → ℝ} (g : Good c wave) (s : Settings) (hm : s.mode = 1 ∨ s.mode = 2) (d : ℝ)
    (bs : List (List ℝ × List Frame)) : ∀ (o : Oscillators) (p q : ℝ), o.phase 0 = Int.fract p → o.phase 1 = Int.fract q →
    o.ratio 1 = centsFactor d → Tame c (moved c (modulator c wave s.depth d q (frames bs)) (frames bs)) →
    Tame c (part c d (frames bs)) →
    play c s o bs = some
      (tone c wave p (moved c (modulator c wave s.depth d q (frames bs)) (frames bs)),
       tone c wave p (moved c (modulator c wave s.depth d q (frames bs)) (frames bs))) := by
  induction bs with
  | nil => intro o p q _ _ _ _ _; rfl
  | cons b bs ih =>
    intro o p q hp hq hr ht ht'
    obtain ⟨junk, b⟩ := b
    have hf : frames ((junk, b) :: bs) = b ++ frames bs := rfl
    rw [hf] at ht ht' ⊢
    rw [modulator_append, moved_append _ _ _ _ _ (modulator_length ..)] at ht ⊢
    rw [part_append] at ht'
    have ho := oscillator_tone g o 1 hq ht'.left
    rw [← part_block, ← hr] at ho
    unfold play fill
    rw [if_neg (by omega), if_neg (by omega), ho]
    simp only [Option.bind_some]
    rw [if_pos hm]
    have hc := oscillator_tone g
      { o with phase := Function.update o.phase 1 (Int.fract (q + elapsed c.interval (b.map fun f => (f.frequency c.base, f.ratio (o.ratio 1))))) }
      0 (p := p) (l := moved c (modulator c wave s.depth d q b) b)
      (by simp only; rw [Function.update_of_ne (by norm_num)]; exact hp) ht.left
    rw [moved_block, show (b.map fun f => (f.frequency c.base, f.ratio (o.ratio 1))) = part c d b by rw [hr, part_block],
      modulator_block]
    rw [show (b.map fun f => (f.frequency c.base, f.ratio (o.ratio 1))) = part c d b by rw [hr, part_block]] at hc
    rw [hc]
    simp only [Option.map_some, Option.bind_some]
    let ph : ℕ → ℝ := Function.update (Function.update o.phase 1
      (Int.fract (q + elapsed c.interval (part c d b)))) 0
        (Int.fract (p + elapsed c.interval (moved c (modulator c wave s.depth d q b) b)))
    have hi := ih { o with phase := ph }
      (p + elapsed c.interval (moved c (modulator c wave s.depth d q b) b)) (q + elapsed c.interval (part c d b))
      (by simp only [ph]; rw [Function.update_self]) (by simp only [ph]; rw [Function.update_of_ne (by norm_num), Function.update_self]) hr ht.right ht'.right
    rw [hi]
    simp only [Option.map_some]
    rw [tone_append]

/-! ### C129 -/

theorem fract_start {p : ℝ} (h0 : 0 ≤ p) (h1 : p < 1) : p = Int.fract p := (Int.fract_eq_self.mpr ⟨h0, h1⟩).symm

/-- C129: a note of one oscillator is that oscillator on both sides, whatever played before and whatever the blocks. -/
theorem single_note {c : Const} {wave : ℕ → ℕ → ℝ} (g : Good c wave) (s : Settings) (hm : s.mode = 0) (h1 : s.multi = 1)
    {p : ℝ} (h0 : 0 ≤ p) (hp : p < 1) (old : Oscillators) (bs : List (List ℝ × List Frame)) (ht : Tame c (plain c (frames bs))) :
    play c s (start s p old) bs = some (tone c wave p (plain c (frames bs)), tone c wave p (plain c (frames bs))) := by
  refine single_play g s hm.le (by omega) bs _ p ?_ ht
  unfold start setup
  rw [if_pos (by omega)]
  exact fract_start h0 hp

/-- C129: a unison is the sum of its oscillators, each detuned by its share and placed from right to left. -/
theorem unison_note {c : Const} {wave : ℕ → ℕ → ℝ} (g : Good c wave) (s : Settings) (hm : s.mode = 0) (h3 : 3 ≤ s.multi)
    {p : ℝ} (h0 : 0 ≤ p) (hp : p < 1) (old : Oscillators) (bs : List (List ℝ × List Frame))
    (ht : ∀ u < s.multi, Tame c (part c (spread s.detune u) (frames bs))) :
    ∃ L R, play c s (start s p old) bs = some (L, R) ∧ L.length = (frames bs).length ∧ R.length = (frames bs).length ∧
      ∀ i < (frames bs).length,
        L.getD i 0 = ∑ u ∈ Finset.range s.multi,
          (u / (s.multi - 1) : ℝ) * (tone c wave p (part c (spread s.detune u) (frames bs))).getD i 0 ∧
        R.getD i 0 = ∑ u ∈ Finset.range s.multi,
          (1 - u / (s.multi - 1) : ℝ) * (tone c wave p (part c (spread s.detune u) (frames bs))).getD i 0 := by
  have hset : start s p old = { old with
      size := s.multi, phase := fun _ => p
      ratio := fun i => if i < s.multi then centsFactor (Wavetable.detune s.detune i) else old.ratio i
      left := (gains s.multi old.left old.right).1
      right := (gains s.multi old.left old.right).2 } := by
    unfold start setup; rw [if_neg (by omega)]
  have hpart : ∀ u < s.multi, ((frames bs).map fun f => (f.frequency c.base, f.ratio ((start s p old).ratio u))) =
      part c (spread s.detune u) (frames bs) := by
    intro u hu
    rw [← part_block, hset]
    simp only [if_pos hu, spread_eq]
  have hsz : (start s p old).size = s.multi := by rw [hset]
  have h := unison_play (wave := wave) g s hm.le h3 bs (start s p old) (fun _ => p) (by rw [hsz]; omega)
    (fun u _ => by rw [hset]; exact fract_start h0 hp) (fun u hu => by rw [hsz] at hu; rw [hpart u hu]; exact ht u hu)
  refine ⟨_, _, h, by simp [mix], by simp [mix], ?_⟩
  intro i hi
  have hget : ∀ w : ℕ → ℝ, ∀ S : ℕ → List ℝ, ∀ m, (mix w S m (frames bs).length).getD i 0 =
      ∑ u ∈ Finset.range m, w u * (S u).getD i 0 := by
    intro w S m
    unfold mix
    rw [List.getD_eq_getElem?_getD, List.getElem?_map, List.getElem?_range hi]
    rfl
  rw [hget, hget, hsz]
  constructor
  · apply Finset.sum_congr rfl
    intro u hu
    have hu := Finset.mem_range.mp hu
    rw [hpart u hu]
    congr 1
    rw [hset]
    simp only
    rw [(unison_gains h3 old.left old.right hu).1]
    push_cast; rfl
  · apply Finset.sum_congr rfl
    intro u hu
    have hu := Finset.mem_range.mp hu
    rw [hpart u hu]
    congr 1
    rw [hset]
    simp only
    rw [(unison_gains h3 old.left old.right hu).2]
    push_cast; rfl

/-- C129: ring modulation is the product of the oscillator and the modulator, on both sides. -/
theorem ring_note {c : Const} {wave : ℕ → ℕ → ℝ} (g : Good c wave) (s : Settings) (hm : s.mode = 0) (h2 : s.multi = 2)
    {p : ℝ} (h0 : 0 ≤ p) (hp : p < 1) (old : Oscillators) (bs : List (List ℝ × List Frame)) (ht : Tame c (plain c (frames bs)))
    (ht' : Tame c (part c s.detune (frames bs))) :
    play c s (start s p old) bs = some
      (List.zipWith (· * ·) (modulator c wave s.depth s.detune p (frames bs)) (tone c wave p (plain c (frames bs))),
       List.zipWith (· * ·) (modulator c wave s.depth s.detune p (frames bs)) (tone c wave p (plain c (frames bs)))) := by
  have hset : start s p old = { old with
      size := 1, phase := fun _ => p
      ratio := Function.update (Function.update old.ratio 0 1) 1 (centsFactor s.detune)
      left := Function.update old.left 0 1
      right := Function.update old.right 0 1 } := by
    unfold start setup; rw [if_pos (by omega)]
  refine ring_play g s hm h2 s.detune bs _ p p ?_ ?_ ?_ ht ht' <;> rw [hset]
  · exact fract_start h0 hp
  · exact fract_start h0 hp
  · simp only; rw [Function.update_self]

/-- C129: frequency modulation moves the pitch of the oscillator by the modulator times its frequency, whatever the number of
oscillators. -/
theorem fm_note {c : Const} {wave : ℕ → ℕ → ℝ} (g : Good c wave) (s : Settings) (hm : s.mode = 1 ∨ s.mode = 2)
    {p : ℝ} (h0 : 0 ≤ p) (hp : p < 1) (old : Oscillators) (bs : List (List ℝ × List Frame))
    (ht : Tame c (moved c (modulator c wave s.depth s.detune p (frames bs)) (frames bs)))
    (ht' : Tame c (part c s.detune (frames bs))) :
    play c s (start s p old) bs = some
      (tone c wave p (moved c (modulator c wave s.depth s.detune p (frames bs)) (frames bs)),
       tone c wave p (moved c (modulator c wave s.depth s.detune p (frames bs)) (frames bs))) := by
  have hset : start s p old = { old with
      size := 1, phase := fun _ => p
      ratio := Function.update (Function.update old.ratio 0 1) 1 (centsFactor s.detune)
      left := Function.update old.left 0 1
      right := Function.update old.right 0 1 } := by
    unfold start setup; rw [if_pos (by omega)]
  refine fm_play g s hm s.detune bs _ p p ?_ ?_ ?_ ht ht' <;> rw [hset]
  · exact fract_start h0 hp
  · exact fract_start h0 hp
  · simp only; rw [Function.update_self]

/-- C129: neither side of a unison passes the level of one oscillator times half their number. -/
theorem unison_peak {m : ℕ} (hm : 3 ≤ m) (x : ℕ → ℝ) {B : ℝ} (hB : ∀ u, |x u| ≤ B) :
    |∑ u ∈ Finset.range m, (u / (m - 1) : ℝ) * x u| ≤ m / 2 * B ∧
    |∑ u ∈ Finset.range m, (1 - u / (m - 1) : ℝ) * x u| ≤ m / 2 * B := by
  have hm1 : (0 : ℝ) < (m : ℝ) - 1 := by
    have : (3 : ℝ) ≤ m := by exact_mod_cast hm
    linarith
  have hsum : ∑ u ∈ Finset.range m, (u / (m - 1) : ℝ) = m / 2 := by
    rw [← Finset.sum_div]
    have h := Finset.sum_range_id_mul_two m
    have h' : (∑ u ∈ Finset.range m, (u : ℝ)) * 2 = m * (m - 1) := by
      have : ((∑ u ∈ Finset.range m, u : ℕ) : ℝ) * 2 = ((m * (m - 1) : ℕ) : ℝ) := by rw [← h]; push_cast; rfl
      rw [Nat.cast_mul, Nat.cast_sub (by omega)] at this
      push_cast at this; exact this
    field_simp
    linarith
  have hw : ∀ u ∈ Finset.range m, (0 : ℝ) ≤ u / (m - 1) ∧ (u / (m - 1) : ℝ) ≤ 1 := by
    intro u hu
    have : u + 1 ≤ m := Finset.mem_range.mp hu
    have : (u : ℝ) + 1 ≤ m := by exact_mod_cast this
    exact ⟨div_nonneg (Nat.cast_nonneg _) hm1.le, (div_le_one hm1).mpr (by linarith)⟩
  constructor
  · refine (Finset.abs_sum_le_sum_abs _ _).trans ?_
    rw [← hsum, Finset.sum_mul]
    apply Finset.sum_le_sum
    intro u hu
    rw [abs_mul, abs_of_nonneg (hw u hu).1]
    exact mul_le_mul_of_nonneg_left (hB u) (hw u hu).1
  · refine (Finset.abs_sum_le_sum_abs _ _).trans ?_
    have hsum' : ∑ u ∈ Finset.range m, (1 - u / (m - 1) : ℝ) = m / 2 := by
      rw [Finset.sum_sub_distrib, hsum]
      simp only [Finset.sum_const, Finset.card_range, nsmul_eq_mul]
      ring
    rw [← hsum', Finset.sum_mul]
    apply Finset.sum_le_sum
    intro u hu
    rw [abs_mul, abs_of_nonneg (by linarith [(hw u hu).2])]
    exact mul_le_mul_of_nonneg_left (hB u) (by linarith [(hw u hu).2])

/-! ### The start phase -/

/-- C129 (partial): the phase given by the opcode, or drawn when it is negative, is a phase: from 0 to below 1, and a phase from 0
to below 1 is kept. Missing: phases set by a message, `phase_message_violated`. -/
theorem start_phase_partial (x u : ℝ) (h0 : 0 ≤ u) (h1 : u ≤ 1) :
    0 ≤ startPhase (readPhase x) u ∧ startPhase (readPhase x) u < 1 ∧
      (0 ≤ x → startPhase (readPhase x) u = Int.fract x) := by
  unfold startPhase readPhase
  by_cases hx : 0 ≤ x
  · have hw : wrapPhase x = Int.fract x := by
      unfold wrapPhase
      simp only
      rw [trunc_nonneg hx, Int.self_sub_floor, if_neg (not_lt.mpr (Int.fract_nonneg x))]
    rw [if_pos hx, hw, if_pos (Int.fract_nonneg x)]
    exact ⟨Int.fract_nonneg x, Int.fract_lt_one x, fun _ => rfl⟩
  · rw [if_neg hx, if_neg (by norm_num)]
    refine ⟨by nlinarith, by nlinarith, fun h => absurd h hx⟩

/-- C129 is violated by the message: a phase of 1000 is kept, and the first frame of the note reads outside of the tables. -/
theorem phase_message_violated (c : Const) (hr : c.r = id) (hs : c.wave.size = 1024) (hq : c.quality = 1) (old : Oscillators)
    (u : ℝ) (junk : List ℝ) (f : Frame) :
    play c ⟨0, 1, 0, 1⟩ (start ⟨0, 1, 0, 1⟩ (startPhase (setPhase 1000) u) old) [(junk, [f])] = none := by
  have hph : startPhase (setPhase 1000) u = 1000 := by unfold startPhase setPhase; rw [if_pos (by norm_num)]
  have hfr : ∀ fr d, frame id c.wave 1 c.interval 1000 fr d = none := by
    intro fr d
    have hu : toUnsigned (id ((1000 : ℝ) * c.wave.size)) = some 1024000 := by
      unfold toUnsigned trunc
      rw [hs]
      simp only [id]
      rw [if_pos (by norm_num), if_pos (by norm_num)]
      norm_num
    have hg : ∀ m, m < 24 → c.wave.get m (1024000 + 0) = none := by
      intro m hm
      unfold Multi.get
      rw [hs]
      unfold tableStart tableExtra numTables
      rw [if_neg]
      push_cast
      omega
    unfold frame
    simp only [hu, Option.bind_eq_bind, Option.bind_some, ofQuality]
    norm_num
    have := hg (tableFor fr) (tableFor_lt fr)
    norm_num at this
    simp [interpolate, this]
  unfold play fill
  rw [if_pos (by norm_num)]
  unfold oscillator start setup
  rw [if_pos (by norm_num), hph, hr, hq]
  simp only [List.map_cons, List.map_nil, processModulated, hfr, Option.bind_eq_bind, Option.bind_none, Option.map_none]

/-! ### The centre of a unison -/

/-- C129 (partial): with an odd number of oscillators the detunings balance around the pitch of the note. Missing: even numbers,
`unison_centre_violated`. -/
theorem unison_centre_partial (d : ℚ) (n : ℕ) : ∑ u ∈ Finset.range (2 * n + 3), spread d u = 0 := by
  rw [← (unison_centred d n).1]
  exact Finset.sum_congr rfl (fun u _ => (spread_eq d u).symm)

/-- C129 is violated by even numbers: four oscillators detuned by 100 cents lie 6.25 cents too low on average. -/
theorem unison_centre_violated : (∑ u ∈ Finset.range 4, spread 100 u) / 4 = -(625 / 100) := by decide +kernel

/-! ### Concrete cases -/

/-- The saw of the engine at 48 kHz, base frequency 440 Hz. -/
noncomputable def saw : Const := ⟨id, create 1024 1 sawProfile (fun _ => 7), 3, 1 / 48000, 440⟩

theorem saw_good : Good saw (fun m => generate 1024 1 (cutoffOf 1024 m) sawProfile) :=
  ⟨rfl, by norm_num [saw, create, fillExtra], create_repeats 1024 (by norm_num) 1 sawProfile (fun _ => 7)⟩

/-- Two blocks of three frames in all, the last one detuned by 1200 cents and without depth. -/
noncomputable def notes : List (List ℝ × List Frame) :=
  [([], [⟨0, none, none⟩, ⟨1200, none, some 1⟩]), ([5, 5], [⟨0, some 1200, some 0⟩])]

theorem notes_plain : plain saw (frames notes) = [(440, 1), (880, 1), (440, 1)] := by
  simp [plain, frames, notes, hertz, saw]
  norm_num

/-- Non-vacuity of `single_note`. -/
example (old : Oscillators) : ∃ L, play saw ⟨0, 1, 0, 1⟩ (start ⟨0, 1, 0, 1⟩ 0 old) notes = some (L, L) ∧ L.length = 3 := by
  refine ⟨_, single_note saw_good ⟨0, 1, 0, 1⟩ rfl rfl le_rfl one_pos old notes ?_, ?_⟩
  · rw [notes_plain]
    intro fd hfd
    simp only [List.mem_cons, List.not_mem_nil, or_false] at hfd
    rcases hfd with rfl | rfl | rfl <;> norm_num [Fits, saw]
  · rw [tone_length, notes_plain]; rfl

theorem notes_part (d : ℚ) (hd : |d| ≤ 1200) : Tame saw (part saw d (frames notes)) := by
  have hb : ∀ x : ℝ, |x| ≤ 2400 → 0 ≤ (2 : ℝ) ^ (x / 1200) ∧ (2 : ℝ) ^ (x / 1200) ≤ 4 := by
    intro x hx
    refine ⟨Real.rpow_nonneg (by norm_num) _, ?_⟩
    calc (2 : ℝ) ^ (x / 1200) ≤ (2 : ℝ) ^ (2 : ℝ) :=
          Real.rpow_le_rpow_of_exponent_le (by norm_num) (by linarith [abs_le.mp hx])
      _ = 4 := by norm_num
  have hd' : |(d : ℝ)| ≤ 1200 := by exact_mod_cast hd
  have h1 := hb d (by linarith)
  have h2 := hb (d + 1200) (by rw [abs_le] at *; constructor <;> linarith)
  intro fd hfd
  simp only [part, frames, notes, List.map_cons, List.map_nil, List.flatten_cons, List.flatten_nil, List.append_nil,
    List.cons_append, List.nil_append, hertz, detuned, saw, Option.getD_none, Option.getD_some, add_zero, List.mem_cons,
    List.not_mem_nil, or_false] at hfd
  rcases hfd with rfl | rfl | rfl <;> norm_num [Fits, saw] <;> constructor <;> nlinarith [h1.1, h1.2, h2.1, h2.2]

/-- Non-vacuity of `unison_note`: five oscillators over 100 cents. -/
example (old : Oscillators) : ∃ L R, play saw ⟨0, 5, 100, 1⟩ (start ⟨0, 5, 100, 1⟩ (1 / 4) old) notes = some (L, R) ∧
    L.length = 3 := by
  obtain ⟨L, R, h, hl, -, -⟩ := unison_note saw_good ⟨0, 5, 100, 1⟩ rfl (by norm_num) (p := 1 / 4) (by norm_num) (by norm_num)
    old notes (by
      intro u hu
      refine notes_part _ ?_
      have : ∀ u < 5, |spread 100 u| ≤ 1200 := by decide +kernel
      exact this u hu)
  exact ⟨L, R, h, by rw [hl]; rfl⟩

/-- Non-vacuity of `ring_note`. -/
example (old : Oscillators) : ∃ L, play saw ⟨0, 2, 700, 1 / 2⟩ (start ⟨0, 2, 700, 1 / 2⟩ 0 old) notes = some (L, L) := by
  refine ⟨_, ring_note saw_good ⟨0, 2, 700, 1 / 2⟩ rfl rfl le_rfl one_pos old notes ?_ (notes_part _ ?_)⟩
  · rw [notes_plain]
    intro fd hfd
    simp only [List.mem_cons, List.not_mem_nil, or_false] at hfd
    rcases hfd with rfl | rfl | rfl <;> norm_num [Fits, saw]
  · norm_num [abs_le]

/-- Non-vacuity of `fm_note`: with a depth that is not zero. -/
example (old : Oscillators) : ∃ depth : ℝ, 0 < depth ∧ ∃ L, play saw ⟨2, 1, 700, depth⟩ (start ⟨2, 1, 700, depth⟩ 0 old)
    [([], [⟨0, none, none⟩])] = some (L, L) := by
  obtain ⟨x, hx⟩ : ∃ x, tone saw (fun m => generate 1024 1 (cutoffOf 1024 m) sawProfile) 0
      (part saw (700 : ℚ) (frames [([], [⟨0, none, none⟩])])) = [x] := ⟨_, rfl⟩
  have hpos : 0 < 1 + |x| := by positivity
  refine ⟨1 / (1 + |x|), by positivity, _, fm_note saw_good ⟨2, 1, 700, 1 / (1 + |x|)⟩ (Or.inr rfl) le_rfl one_pos old _ ?_ ?_⟩
  · simp only [modulator, hx]
    intro fd hfd
    simp only [frames, List.map_cons, List.map_nil, List.flatten_cons, List.flatten_nil, List.append_nil, moved, hertz,
      List.zipWith_cons_cons, List.zipWith_nil_left, List.mem_cons, List.not_mem_nil, or_false, Option.getD_none, mul_one] at hfd
    subst hfd
    have hy : |x * (1 / (1 + |x|))| ≤ 1 := by
      rw [abs_mul, abs_of_pos (by positivity : 0 < 1 / (1 + |x|)), mul_one_div, div_le_one hpos]
      linarith
    obtain ⟨h1, h2⟩ := abs_le.mp hy
    simp only [Fits, saw, zero_div, Real.rpow_zero, mul_one, one_mul]
    constructor <;> nlinarith
  · intro fd hfd
    simp only [part, frames, List.map_cons, List.map_nil, List.flatten_cons, List.flatten_nil, List.append_nil, hertz, detuned,
      List.mem_cons, List.not_mem_nil, or_false, Option.getD_none, add_zero] at hfd
    subst hfd
    have h1 : 0 ≤ (2 : ℝ) ^ (((700 : ℚ) : ℝ) / 1200) := Real.rpow_nonneg (by norm_num) _
    have h2 : (2 : ℝ) ^ (((700 : ℚ) : ℝ) / 1200) ≤ (2 : ℝ) ^ (1 : ℝ) :=
      Real.rpow_le_rpow_of_exponent_le (by norm_num) (by norm_num)
    rw [Real.rpow_one] at h2
    simp only [Fits, saw, zero_div, Real.rpow_zero, mul_one]
    constructor <;> nlinarith

end Verif.Generator
