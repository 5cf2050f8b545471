import Verif.Mixer.Model
import Mathlib.Algebra.BigOperators.Intervals
import Mathlib.Tactic.Linarith
import Mathlib.Tactic.Ring
import Mathlib.Tactic.Abel
import Mathlib.Tactic.Module

/-!
What the host hears is the sum of the voices through the buses (property C77).
-/
namespace Verif.Mixer

variable {E : Type} (run : E → List (ℚ × ℚ) → List (ℚ × ℚ) × E)

/-! ### Specification -/

/-- What the voices send to bus `k` of output `i`: the sum of their signals, each with its gain for this bus. -/
def sent (voices : List Voice) (i k : Nat) : Stereo :=
  fun t => ((voices.filter fun v => v.output = i).map fun v => v.gain k • v.signal t).sum

/-- A signal through a chain of effects. -/
def chained (es : List E) (xs : List (ℚ × ℚ)) : List (ℚ × ℚ) := es.foldl (fun xs e => (run e xs).1) xs

/-- The effects of a chain once a signal has gone through. -/
def advanced : List E → List (ℚ × ℚ) → List E
  | [], _ => []
  | e :: es, xs => (run e xs).2 :: advanced es (run e xs).1

/-- The gain of a bus towards the listener: its part into the main signal plus its part into the mix signal. -/
def Bus.level (b : Bus E) : ℚ := b.toMain + b.toMix

/-- What is heard of the buses `k`, `k + 1`, … of output `i`: the signal sent to each, through its effects, at its level. A bus
whose two gains are zero is not heard. -/
def heard (n : Nat) (voices : List Voice) (i : Nat) : Nat → List (Option (Bus E)) → Nat → ℚ × ℚ
  | _, [], _ => 0
  | k, none :: l, t => heard n voices i (k + 1) l t
  | k, some b :: l, t =>
    (if b.toMain = 0 ∧ b.toMix = 0 then 0 else b.level • (chained run b.effects (frames n (sent voices i k))).getD t 0)
      + heard n voices i (k + 1) l t

/-- The share of an output in channel `c`, its left channel being number `start`. -/
def share (start c : Nat) (x : ℚ × ℚ) : ℚ := if c = start then x.1 else if c = start + 1 then x.2 else 0

/-! ### Lemmas on buffers -/

theorem frames_length (n : Nat) (b : Stereo) : (frames n b).length = n := by simp [frames]

theorem frames_congr {n : Nat} {a b : Stereo} (h : ∀ t < n, a t = b t) : frames n a = frames n b := by
  unfold frames
  apply List.map_congr_left
  intro t ht
  exact h t (List.mem_range.mp ht)

theorem frames_store (n : Nat) (out : List (ℚ × ℚ)) (b : Stereo) (h : out.length = n) : frames n (store n out b) = out := by
  apply List.ext_getElem
  · simp [frames, h]
  · intro t h1 h2
    have ht : t < n := by omega
    simp only [frames, List.getElem_map, List.getElem_range, store, if_pos ht, List.getD_eq_getElem?_getD,
      List.getElem?_eq_getElem h2, Option.getD_some]

theorem frames_getD (n : Nat) (b : Stereo) (t : Nat) (ht : t < n) : (frames n b).getD t 0 = b t := by
  simp [frames, ht]

theorem chained_length (hlen : ∀ e xs, (run e xs).1.length = xs.length) (es : List E) :
    ∀ xs, (chained run es xs).length = xs.length := by
  induction es with
  | nil => intro xs; rfl
  | cons e es ih => intro xs; exact (ih _).trans (hlen e xs)

theorem runInPlace_spec (hlen : ∀ e xs, (run e xs).1.length = xs.length) (n : Nat) (es : List E) :
    ∀ out, (runInPlace run n es out).1 = advanced run es (frames n out)
      ∧ frames n (runInPlace run n es out).2 = chained run es (frames n out) := by
  induction es with
  | nil => intro out; exact ⟨rfl, rfl⟩
  | cons e es ih =>
    intro out
    have hl : (run e (frames n out)).1.length = n := by rw [hlen, frames_length]
    have := ih (store n (run e (frames n out)).1 out)
    rw [frames_store n _ _ hl] at this
    simp only [runInPlace, advanced, this.1, this.2, true_and]
    rfl

/-- What a bus puts out: the signal through its effects if the bus is heard at all. -/
theorem process_spec (hlen : ∀ e xs, (run e xs).1.length = xs.length) (n : Nat) (b : Bus E) :
    (b.process run n).toMain = b.toMain ∧ (b.process run n).toMix = b.toMix ∧ (b.process run n).inputs = b.inputs ∧
    ((b.toMain ≠ 0 ∨ b.toMix ≠ 0) → (b.process run n).effects = advanced run b.effects (frames n b.inputs) ∧
      frames n (b.process run n).outputs = chained run b.effects (frames n b.inputs)) ∧
    (b.toMain = 0 ∧ b.toMix = 0 → (b.process run n).effects = b.effects) := by
  have hf := frames_store n (frames n b.inputs) b.outputs (frames_length _ _)
  obtain ⟨es, inp, out, g, m⟩ := b
  cases es with
  | nil => exact ⟨rfl, rfl, rfl, fun _ => ⟨rfl, hf⟩, fun _ => rfl⟩
  | cons e es =>
    by_cases hz : (Bus.nonZero ⟨e :: es, inp, out, g, m⟩ : Bool) = true
    · have hl : (run e (frames n inp)).1.length = n := by rw [hlen, frames_length]
      have h := runInPlace_spec run hlen n es (store n (run e (frames n inp)).1 out)
      rw [frames_store n _ _ hl] at h
      simp only [Bus.process, hz, if_true, true_and]
      refine ⟨fun _ => ⟨?_, ?_⟩, ?_⟩
      · rw [h.1]; rfl
      · rw [h.2]; rfl
      · intro h0
        simp [Bus.nonZero, h0.1, h0.2] at hz
    · simp only [Bus.process, hz, true_and]
      refine ⟨rfl, rfl, rfl, ?_, fun _ => rfl⟩
      intro h0
      exfalso
      apply hz
      simp only [Bus.nonZero]
      rcases h0 with h0 | h0 <;> simp [h0]

/-! ### Buses keep their setup -/

/-- Effects and gains of a bus. -/
def Bus.shape (b : Bus E) : List E × ℚ × ℚ := (b.effects, b.toMain, b.toMix)

/-- The setup of all buses. -/
def shapes (bs : Buses E) : List (List (Option (List E × ℚ × ℚ))) := bs.map (List.map (Option.map Bus.shape))

/-- Bus `k` of output `i`. -/
def busAt (bs : Buses E) (i k : Nat) : Option (Bus E) := ((bs[i]?).bind (·[k]?)).join

theorem shape_add (n : Nat) (g : ℚ) (x : Stereo) (b : Bus E) : (b.addToInputs n g x).shape = b.shape := by
  unfold Bus.addToInputs; split <;> rfl

theorem add_inputs (n : Nat) (g : ℚ) (x : Stereo) (b : Bus E) (t : Nat) (ht : t < n) :
    (b.addToInputs n g x).inputs t = b.inputs t + g • x t := by
  unfold Bus.addToInputs
  split
  · rename_i h; rw [h, zero_smul, add_zero]
  · simp only [multiplyAdd, if_pos ht]

theorem addVoice_spec (n : Nat) (v : Voice) (bs : Buses E) (hv : v.output < bs.length) :
    ∃ bs', addVoice n v bs = some bs' ∧ shapes bs' = shapes bs ∧ bs'.length = bs.length ∧
      ∀ i k b', busAt bs' i k = some b' → ∃ b, busAt bs i k = some b ∧
        ∀ t < n, b'.inputs t = b.inputs t + if v.output = i then v.gain k • v.signal t else 0 := by
  have hl : bs[v.output]? = some bs[v.output] := List.getElem?_eq_getElem hv
  refine ⟨bs.set v.output (bs[v.output].mapIdx fun k b => b.map (Bus.addToInputs n (v.gain k) v.signal)),
    by simp only [addVoice, hl], ?_, List.length_set, ?_⟩
  · unfold shapes
    apply List.ext_getElem?
    intro i
    simp only [List.getElem?_map, List.getElem?_set]
    by_cases hi : v.output = i
    · subst hi
      simp only [if_pos hv, if_true, hl, Option.map_some, Option.some.injEq]
      apply List.ext_getElem?
      intro k
      simp only [List.getElem?_map, List.getElem?_mapIdx, Option.map_map]
      cases (bs[v.output])[k]? with
      | none => rfl
      | some b => cases b with
        | none => rfl
        | some b => simp [shape_add]
    · simp only [if_neg hi]
  · intro i k b' hb'
    simp only [busAt, List.getElem?_set] at hb'
    by_cases hi : v.output = i
    · subst hi
      simp only [if_pos hv, if_true, Option.bind_some, List.getElem?_mapIdx] at hb'
      simp only [busAt, hl, Option.bind_some]
      cases hk : (bs[v.output])[k]? with
      | none => rw [hk] at hb'; simp at hb'
      | some o =>
        rw [hk] at hb'
        cases o with
        | none => simp at hb'
        | some b =>
          simp only [Option.map_some, Option.join_some, Option.some.injEq] at hb'
          refine ⟨b, rfl, ?_⟩
          intro t ht
          rw [← hb', add_inputs n _ _ _ _ ht, if_pos trivial]
    · simp only [if_neg hi] at hb'
      refine ⟨b', hb', ?_⟩
      intro t _
      rw [if_neg hi, add_zero]

theorem sent_cons (v : Voice) (vs : List Voice) (i k t : Nat) :
    sent (v :: vs) i k t = (if v.output = i then v.gain k • v.signal t else 0) + sent vs i k t := by
  unfold sent
  by_cases h : v.output = i
  · simp [List.filter_cons, h]
  · simp [List.filter_cons, h]

theorem addVoices_spec (n : Nat) (vs : List Voice) : ∀ bs : Buses E, (∀ v ∈ vs, v.output < bs.length) →
    ∃ bs', addVoices n vs bs = some bs' ∧ shapes bs' = shapes bs ∧ bs'.length = bs.length ∧
      ∀ i k b', busAt bs' i k = some b' → ∃ b, busAt bs i k = some b ∧ ∀ t < n, b'.inputs t = b.inputs t + sent vs i k t := by
  induction vs with
  | nil => intro bs _; exact ⟨bs, rfl, rfl, rfl, fun i k b' h => ⟨b', h, by intro t _; simp [sent]⟩⟩
  | cons v vs ih =>
    intro bs hv
    obtain ⟨b1, h1, h2, h3, h4⟩ := addVoice_spec n v bs (hv v (by simp))
    obtain ⟨b2, g1, g2, g3, g4⟩ := ih b1 (fun w hw => by rw [h3]; exact hv w (by simp [hw]))
    refine ⟨b2, by simp only [addVoices, h1, Option.bind_eq_bind, Option.bind_some]; exact g1, g2.trans h2, g3.trans h3, ?_⟩
    intro i k b' hb
    obtain ⟨c, hc, hct⟩ := g4 i k b' hb
    obtain ⟨d, hd, hdt⟩ := h4 i k c hc
    refine ⟨d, hd, ?_⟩
    intro t ht
    rw [hct t ht, hdt t ht, sent_cons, add_assoc]

theorem clear_spec (n numOutputs : Nat) (bs : Buses E) (h : numOutputs ≤ bs.length) :
    ∃ bs', clearBuses n numOutputs bs = some bs' ∧ shapes bs' = shapes bs ∧ bs'.length = bs.length ∧
      ∀ i k b', i < numOutputs → busAt bs' i k = some b' → ∀ t < n, b'.inputs t = 0 := by
  refine ⟨bs.mapIdx fun i l => if i < numOutputs then l.map (Option.map (Bus.clearInputs n)) else l,
    by simp only [clearBuses, if_pos h], ?_, List.length_mapIdx, ?_⟩
  · unfold shapes
    apply List.ext_getElem?
    intro i
    simp only [List.getElem?_map, List.getElem?_mapIdx, Option.map_map]
    cases bs[i]? with
    | none => rfl
    | some l =>
      simp only [Option.map_some, Function.comp, Option.some.injEq]
      split
      · rw [List.map_map]
        apply List.map_congr_left
        intro o _
        cases o <;> rfl
      · rfl
  · intro i k b' hi hb t ht
    simp only [busAt, List.getElem?_mapIdx] at hb
    cases hl : bs[i]? with
    | none => rw [hl] at hb; simp at hb
    | some l =>
      rw [hl] at hb
      simp only [Option.map_some, if_pos hi, Option.bind_some, List.getElem?_map] at hb
      cases hk : l[k]? with
      | none => rw [hk] at hb; simp at hb
      | some o =>
        rw [hk] at hb
        cases o with
        | none => simp at hb
        | some b =>
          simp only [Option.map_some, Option.join_some, Option.some.injEq] at hb
          rw [← hb]
          simp only [Bus.clearInputs, clearFirst, if_pos ht]

/-! ### Mixing -/

/-- What becomes of a bus in a block: its effects have seen the signal if the bus is heard. -/
def done (n : Nat) (x : Stereo) (o : Option (Bus E)) : Option (List E × ℚ × ℚ) :=
  o.map fun b => (if b.toMain = 0 ∧ b.toMix = 0 then b.effects else advanced run b.effects (frames n x), b.toMain, b.toMix)

theorem mixBuses_spec (hlen : ∀ e xs, (run e xs).1.length = xs.length) (n : Nat) (voices : List Voice) (i : Nat)
    (l : List (Option (Bus E))) : ∀ (k : Nat) (main mix : Stereo),
      (∀ j b, l[j]? = some (some b) → ∀ t < n, b.inputs t = sent voices i (k + j) t) →
      (∀ t < n, (mixBuses run n l main mix).2.1 t + (mixBuses run n l main mix).2.2 t
        = main t + mix t + heard run n voices i k l t) ∧
      (mixBuses run n l main mix).1.map (Option.map Bus.shape) = l.mapIdx fun j o => done run n (sent voices i (k + j)) o := by
  induction l with
  | nil => intro k main mix _; exact ⟨fun t _ => by simp [mixBuses, heard], rfl⟩
  | cons o l ih =>
    intro k main mix hin
    have hin' : ∀ j b, l[j]? = some (some b) → ∀ t < n, b.inputs t = sent voices i (k + 1 + j) t := by
      intro j b hj t ht
      rw [hin (j + 1) b (by simpa using hj) t ht]
      congr 1; omega
    have hidx : (fun j (o : Option (Bus E)) => done run n (sent voices i (k + (j + 1))) o)
        = fun j o => done run n (sent voices i (k + 1 + j)) o := by
      funext j o; rw [show k + (j + 1) = k + 1 + j by omega]
    cases o with
    | none =>
      obtain ⟨h1, h2⟩ := ih (k + 1) main mix hin'
      refine ⟨h1, ?_⟩
      simp only [mixBuses, List.map_cons, h2, List.mapIdx_cons, hidx]
      rfl
    | some b =>
      have hb := hin 0 b (by simp)
      simp only [add_zero] at hb
      have hfr : frames n b.inputs = frames n (sent voices i k) := frames_congr hb
      obtain ⟨p1, p2, p3, p4, p5⟩ := process_spec run hlen n b
      obtain ⟨h1, h2⟩ := ih (k + 1) (multiplyAdd n (b.process run n).toMain (b.process run n).outputs main)
        (multiplyAdd n (b.process run n).toMix (b.process run n).outputs mix) hin'
      constructor
      · intro t ht
        have := h1 t ht
        simp only [mixBuses, heard]
        rw [this]
        simp only [multiplyAdd, if_pos ht, p1, p2]
        by_cases hz : b.toMain = 0 ∧ b.toMix = 0
        · rw [if_pos hz, hz.1, hz.2]
          simp only [zero_smul, add_zero, zero_add]
        · rw [if_neg hz]
          have hor : b.toMain ≠ 0 ∨ b.toMix ≠ 0 := by
            by_contra hc; push Not at hc; exact hz hc
          have hout : (b.process run n).outputs t = (chained run b.effects (frames n (sent voices i k))).getD t 0 := by
            rw [← hfr, ← (p4 hor).2, frames_getD n _ _ ht]
          rw [hout, Bus.level, add_smul]
          abel
      · simp only [mixBuses, List.map_cons, h2, List.mapIdx_cons, hidx, List.cons.injEq, and_true]
        simp only [Option.map_some, Bus.shape, done, p1, p2, add_zero]
        by_cases hz : b.toMain = 0 ∧ b.toMix = 0
        · rw [if_pos hz, p5 hz]
        · have hor : b.toMain ≠ 0 ∨ b.toMix ≠ 0 := by
            by_contra hc; push Not at hc; exact hz hc
          rw [if_neg hz, (p4 hor).1, hfr]

theorem share_add (start c : Nat) (x y : ℚ × ℚ) : share start c (x + y) = share start c x + share start c y := by
  unfold share; split
  · rfl
  · split
    · rfl
    · simp

theorem put_pair (h : Host) (start : Nat) (s : Stereo) (x : ℚ × ℚ) (c t : Nat) (hs : s t = pair h start t + x) :
    putPair h start s c t = h c t + share start c x := by
  unfold putPair share
  rw [hs]
  simp only [pair]
  split
  · rename_i e; subst e; rfl
  · split
    · rename_i e; subst e; rfl
    · simp

theorem heard_congr (n : Nat) (voices : List Voice) (i : Nat) (l : List (Option (Bus E))) : ∀ (l' : List (Option (Bus E))) (k t : Nat),
    l'.map (Option.map Bus.shape) = l.map (Option.map Bus.shape) → heard run n voices i k l' t = heard run n voices i k l t := by
  induction l with
  | nil => intro l' k t h; simp only [List.map_nil, List.map_eq_nil_iff] at h; subst h; rfl
  | cons o l ih =>
    intro l' k t h
    cases l' with
    | nil => simp at h
    | cons o' l' =>
      simp only [List.map_cons, List.cons.injEq] at h
      cases o with
      | none =>
        cases o' with
        | some _ => simp at h
        | none => exact ih l' (k + 1) t h.2
      | some b =>
        cases o' with
        | none => simp at h
        | some b' =>
          have e := h.1
          simp only [Option.map_some, Option.some.injEq, Bus.shape, Prod.mk.injEq] at e
          simp only [heard, Bus.level, e.1, e.2.1, e.2.2, ih l' (k + 1) t h.2]

theorem mixOutputs_spec (hlen : ∀ e xs, (run e xs).1.length = xs.length) (n channels : Nat) (voices : List Voice) (k : Nat) :
    ∀ (i : Nat) (bs : Buses E) (h : Host), i + k ≤ bs.length →
      (∀ j, i ≤ j → j < i + k → outputStart channels j + 1 < channels) →
      (∀ j m b, i ≤ j → j < i + k → busAt bs j m = some b → ∀ t < n, b.inputs t = sent voices j m t) →
      ∃ bs' h', mixOutputs run n channels i k bs h = some (bs', h') ∧
        (∀ c, ∀ t < n, h' c t = h c t
          + ((List.range k).map fun j => share (outputStart channels (i + j)) c
              (heard run n voices (i + j) 0 (bs.getD (i + j) []) t)).sum) ∧
        bs'.length = bs.length ∧ (∀ j, (j < i ∨ i + k ≤ j) → bs'[j]? = bs[j]?) ∧
        (∀ j, i ≤ j → j < i + k → (bs'.getD j []).map (Option.map Bus.shape)
          = (bs.getD j []).mapIdx fun m o => done run n (sent voices j m) o) := by
  induction k with
  | zero => intro i bs h _ _ _; exact ⟨bs, h, rfl, by simp, rfl, fun _ _ => rfl, fun j h1 h2 => absurd h2 (by omega)⟩
  | succ k ih =>
    intro i bs h hle hch hin
    have hil : i < bs.length := by omega
    have hl : bs[i]? = some bs[i] := List.getElem?_eq_getElem hil
    have hin' : ∀ j b, (bs[i])[j]? = some (some b) → ∀ t < n, b.inputs t = sent voices i (0 + j) t := by
      intro j b hj t ht
      rw [zero_add]
      exact hin i j b (le_refl _) (by omega) (by simp only [busAt, hl, Option.bind_some, hj, Option.join_some]) t ht
    obtain ⟨m1, m2⟩ := mixBuses_spec run hlen n voices i bs[i] 0 (pair h (outputStart channels i)) (fun _ => 0) hin'
    generalize hr : mixBuses run n bs[i] (pair h (outputStart channels i)) (fun _ => 0) = r at m1 m2
    have hne : ∀ j, i + 1 ≤ j → (bs.set i r.1)[j]? = bs[j]? := by
      intro j hj; rw [List.getElem?_set]; rw [if_neg (by omega)]
    obtain ⟨bs', h', g1, g2, g3, g4, g5⟩ := ih (i + 1) (bs.set i r.1)
      (putPair h (outputStart channels i) (multiplyAdd n 1 r.2.2 r.2.1)) (by simp; omega)
      (fun j h1 h2 => hch j (by omega) (by omega))
      (fun j m b h1 h2 hb => hin j m b (by omega) (by omega) (by simp only [busAt, hne j h1] at hb; exact hb))
    refine ⟨bs', h', ?_, ?_, by simpa using g3, ?_, ?_⟩
    · simp only [mixOutputs, if_pos (hch i (le_refl _) (by omega)), hl, hr]; exact g1
    · intro c t ht
      rw [g2 c t ht, put_pair h (outputStart channels i) _ (heard run n voices i 0 bs[i] t) c t ?_]
      · rw [List.range_succ_eq_map, List.map_cons, List.sum_cons, List.map_map]
        have hd : bs.getD i [] = bs[i] := by simp [List.getD_eq_getElem?_getD, hl]
        simp only [add_zero, hd]
        rw [add_assoc]
        congr 3
        apply List.map_congr_left
        intro j _
        simp only [Function.comp]
        have e1 : (bs.set i r.1).getD (i + 1 + j) [] = bs.getD (i + 1 + j) [] := by
          simp only [List.getD_eq_getElem?_getD]; rw [hne (i + 1 + j) (by omega)]
        rw [e1, show i + 1 + j = i + (j + 1) by omega]
      · have := m1 t ht
        simp only [multiplyAdd, if_pos ht, one_smul]
        rw [this]
        simp
    · intro j hj
      rw [g4 j (by omega)]
      rw [List.getElem?_set, if_neg (by omega)]
    · intro j h1 h2
      rcases Nat.eq_or_lt_of_le h1 with e | e
      · subst e
        have e2 : bs'.getD i [] = r.1 := by
          rw [List.getD_eq_getElem?_getD, g4 i (by omega), List.getElem?_set, if_pos rfl, if_pos hil]; rfl
        have hd : bs.getD i [] = bs[i] := by simp [List.getD_eq_getElem?_getD, hl]
        rw [e2, hd, m2]
        simp only [zero_add]
      · have := g5 j e (by omega)
        rw [this]
        have e3 : (bs.set i r.1).getD j [] = bs.getD j [] := by
          simp only [List.getD_eq_getElem?_getD]; rw [hne j (by omega)]
        rw [e3]

/-! ### The property -/

/-- C77: for any number of voices, outputs, buses and effects, and whatever the buffers held before, a block is rendered and
the host hears in each channel the volume times the sum, over the outputs sent to that channel, of the buses of the output:
each at its level, with the signals sent to it by the voices of the output passed through its effects. Every effect of a bus
that is heard has run exactly once, on this signal; the others have not run. -/
theorem mix_of_voices (hlen : ∀ e xs, (run e xs).1.length = xs.length) (n channels numOutputs : Nat) (volume : ℚ)
    (voices : List Voice) (bs : Buses E) (hb : numOutputs ≤ bs.length) (hv : ∀ v ∈ voices, v.output < bs.length)
    (hc : ∀ i < numOutputs, outputStart channels i + 1 < channels) :
    ∃ bs' h, renderBlock run n channels numOutputs volume voices bs = some (bs', h) ∧
      (∀ c, ∀ t < n, h c t = volume * ((List.range numOutputs).map fun i =>
        share (outputStart channels i) c (heard run n voices i 0 (bs.getD i []) t)).sum) ∧
      bs'.length = bs.length ∧
      (∀ i < numOutputs, (bs'.getD i []).map (Option.map Bus.shape)
        = (bs.getD i []).mapIdx fun k o => done run n (sent voices i k) o) := by
  obtain ⟨b1, h1, s1, l1, z1⟩ := clear_spec n numOutputs bs hb
  obtain ⟨b2, h2, s2, l2, z2⟩ := addVoices_spec n voices b1 (fun v hm => by rw [l1]; exact hv v hm)
  have hsh : ∀ i, (b2.getD i []).map (Option.map Bus.shape) = (bs.getD i []).map (Option.map Bus.shape) := by
    intro i
    have := congrArg (fun l => l[i]?) (s2.trans s1)
    simp only [shapes, List.getElem?_map] at this
    simp only [List.getD_eq_getElem?_getD]
    cases e1 : b2[i]? <;> cases e2 : bs[i]? <;> rw [e1, e2] at this <;> simp_all
  obtain ⟨b3, h, h3, m3, l3, _, d3⟩ := mixOutputs_spec run hlen n channels voices numOutputs 0 b2 (fun _ _ => 0) (by omega)
    (fun j _ hj => hc j (by omega)) (by
      intro j m b _ hj hbm t ht
      obtain ⟨b0, e0, e1⟩ := z2 j m b hbm
      rw [e1 t ht, z1 j m b0 (by omega) e0 t ht, zero_add])
  refine ⟨b3, _, by simp only [renderBlock, h1, Option.bind_eq_bind, Option.bind_some, h2, h3]; rfl, ?_, by omega, ?_⟩
  · intro c t ht
    rw [m3 c t ht, zero_add]
    congr 2
    apply List.map_congr_left
    intro j _
    simp only [zero_add]
    rw [heard_congr run n voices j (bs.getD j []) (b2.getD j []) 0 t (hsh j)]
  · intro i hi
    rw [d3 i (by omega) (by omega)]
    have e := hsh i
    apply List.ext_getElem?
    intro k
    have ek := congrArg (fun l => l[k]?) e
    simp only [List.getElem?_map] at ek
    simp only [List.getElem?_mapIdx]
    generalize (b2.getD i [])[k]? = x at ek ⊢
    generalize (bs.getD i [])[k]? = y at ek ⊢
    rcases x with _ | _ | x <;> rcases y with _ | _ | y <;>
      simp only [Option.map_some, Option.map_none, Option.some.injEq, reduceCtorEq, Bus.shape, Prod.mk.injEq] at ek
    · rfl
    · rfl
    · simp only [done, Option.map_some, ek.1, ek.2.1, ek.2.2]

/-- With an even number of channels, at least two, each output has its pair: output `i` plays on pair `i` modulo the number of
pairs. -/
theorem even_channels (p i : Nat) (hp : 0 < p) : outputStart (2 * p) i = 2 * (i % p) ∧ outputStart (2 * p) i + 1 < 2 * p := by
  have h : outputStart (2 * p) i = 2 * (i % p) := by
    unfold outputStart
    rw [if_neg (by omega), Nat.mul_mod_mul_left]
  have := Nat.mod_lt i hp
  exact ⟨h, by omega⟩

theorem sent_perm {vs ws : List Voice} (h : vs.Perm ws) (i k : Nat) : sent vs i k = sent ws i k := by
  funext t
  unfold sent
  exact ((h.filter _).map _).sum_eq

theorem heard_perm (n : Nat) {vs ws : List Voice} (h : vs.Perm ws) (i : Nat) (l : List (Option (Bus E))) :
    ∀ k t, heard run n vs i k l t = heard run n ws i k l t := by
  induction l with
  | nil => intro k t; rfl
  | cons o l ih =>
    intro k t
    cases o with
    | none => exact ih _ _
    | some b => simp only [heard, sent_perm h, ih]

/-- C77: the order of the voices does not matter to what is heard. -/
theorem mix_order (hlen : ∀ e xs, (run e xs).1.length = xs.length) (n channels numOutputs : Nat) (volume : ℚ)
    (vs ws : List Voice) (hperm : vs.Perm ws) (bs : Buses E) (hb : numOutputs ≤ bs.length) (hv : ∀ v ∈ vs, v.output < bs.length)
    (hc : ∀ i < numOutputs, outputStart channels i + 1 < channels) :
    ∃ b h b' h', renderBlock run n channels numOutputs volume vs bs = some (b, h) ∧
      renderBlock run n channels numOutputs volume ws bs = some (b', h') ∧ ∀ c, ∀ t < n, h c t = h' c t := by
  obtain ⟨b, h, e1, m1, _⟩ := mix_of_voices run hlen n channels numOutputs volume vs bs hb hv hc
  obtain ⟨b', h', e2, m2, _⟩ := mix_of_voices run hlen n channels numOutputs volume ws bs hb
    (fun v hm => hv v (hperm.mem_iff.mpr hm)) hc
  refine ⟨b, h, b', h', e1, e2, ?_⟩
  intro c t ht
  rw [m1 c t ht, m2 c t ht]
  congr 2
  apply List.map_congr_left
  intro i _
  rw [heard_perm run n hperm]

/-! ### Setup -/

/-- The headers of an instrument, in order, then the outputs of its regions. -/
structure Header (E : Type) where
  output : Nat
  ops : List GainOp
  bus : Option Nat
  fx : E

/-- Loading an instrument, as far as buses are concerned. -/
def load (hs : List (Header E)) (outputs : List Nat) : Setup E :=
  finalize outputs (hs.foldl (fun s h => effectHeader h.output h.ops h.bus h.fx s) cleared)

theorem withBus_length (output index : Nat) (f : Bus E → Bus E) (bs : Buses E) : (withBus output index f bs).length = bs.length := by
  simp [withBus]

/-- Every output has its main bus. -/
def HasMain (bs : Buses E) : Prop := ∀ l ∈ bs, ∃ b l', l = some b :: l'

theorem withBus_main (output index : Nat) (f : Bus E → Bus E) (bs : Buses E) (h : HasMain bs) : HasMain (withBus output index f bs) := by
  intro l hl
  unfold withBus at hl
  obtain ⟨i, hi, rfl⟩ := List.getElem_of_mem hl
  rw [List.getElem_modify]
  split
  · obtain ⟨b, l', e⟩ := h _ (List.getElem_mem (by simpa using hi))
    rw [e]
    cases index with
    | zero => rw [List.cons_append, List.modify_zero_cons]; exact ⟨_, _, rfl⟩
    | succ k => rw [List.cons_append, List.modify_succ_cons]; exact ⟨_, _, rfl⟩
  · exact h _ (List.getElem_mem _)

theorem addBuses_main (output : Nat) (bs : Buses E) (h : HasMain bs) : HasMain (addBuses output bs) := by
  intro l hl
  simp only [addBuses, List.mem_append, List.mem_replicate] at hl
  rcases hl with hl | ⟨_, rfl⟩
  · exact h l hl
  · exact ⟨_, _, rfl⟩

theorem addBuses_length (output : Nat) (bs : Buses E) : (addBuses output bs).length = max bs.length (output + 1) := by
  simp [addBuses]; omega

theorem gainOp_ok (output : Nat) (bs : Buses E) (g : GainOp) (h : HasMain bs) :
    HasMain (gainOp output bs g) ∧ (gainOp output bs g).length = bs.length := by
  cases g with
  | directToMain g => exact ⟨withBus_main output 0 (fun b => { b with toMain := g }) bs h,
      withBus_length output 0 (fun b => { b with toMain := g }) bs⟩
  | toMain k x =>
    simp only [gainOp]; split
    · exact ⟨h, rfl⟩
    · exact ⟨withBus_main _ _ _ _ h, withBus_length _ _ _ _⟩
  | toMix k x =>
    simp only [gainOp]; split
    · exact ⟨h, rfl⟩
    · exact ⟨withBus_main _ _ _ _ h, withBus_length _ _ _ _⟩

theorem gainOps_ok (output : Nat) (gs : List GainOp) : ∀ bs : Buses E, HasMain bs →
    HasMain (gs.foldl (gainOp output) bs) ∧ (gs.foldl (gainOp output) bs).length = bs.length := by
  induction gs with
  | nil => intro bs h; exact ⟨h, rfl⟩
  | cons g gs ih =>
    intro bs h
    obtain ⟨h1, h2⟩ := gainOp_ok output bs g h
    obtain ⟨h3, h4⟩ := ih _ h1
    exact ⟨h3, h4.trans h2⟩

theorem effectHeader_ok (h : Header E) (s : Setup E) (hm : HasMain s.buses) :
    HasMain (effectHeader h.output h.ops h.bus h.fx s).buses ∧ s.buses.length ≤ (effectHeader h.output h.ops h.bus h.fx s).buses.length
      ∧ (effectHeader h.output h.ops h.bus h.fx s).numOutputs = s.numOutputs := by
  have h1 := addBuses_main h.output s.buses hm
  obtain ⟨h2, h3⟩ := gainOps_ok h.output h.ops _ h1
  have hl := addBuses_length h.output s.buses
  unfold effectHeader
  cases h.bus with
  | none => exact ⟨h2, by simp only; omega, rfl⟩
  | some k =>
    simp only
    split
    · exact ⟨withBus_main h.output k (fun b => { b with effects := b.effects ++ [h.fx] }) _ h2,
        by simp only [withBus_length]; omega, rfl⟩
    · exact ⟨h2, by simp only; omega, rfl⟩

theorem max_outputs (os : List Nat) : ∀ m, m ≤ os.foldl (fun m o => max (o + 1) m) m ∧ ∀ o ∈ os, o < os.foldl (fun m o => max (o + 1) m) m := by
  induction os with
  | nil => intro m; exact ⟨le_refl _, by simp⟩
  | cons o os ih =>
    intro m
    obtain ⟨h1, h2⟩ := ih (max (o + 1) m)
    simp only [List.foldl_cons]
    refine ⟨by omega, ?_⟩
    intro p hp
    rcases List.mem_cons.mp hp with rfl | hp
    · omega
    · exact h2 p hp

/-- C77, setup: after loading any instrument (any `<effect>` headers, any outputs of regions), every region plays to an output
that is mixed, and every output has its buses, the main one included. So a block can be rendered with any voices of these
regions. -/
theorem load_outputs (hs : List (Header E)) (outputs : List Nat) :
    0 < (load hs outputs).numOutputs ∧ (load hs outputs).numOutputs ≤ (load hs outputs).buses.length ∧
    (∀ o ∈ outputs, o < (load hs outputs).numOutputs) ∧ HasMain (load hs outputs).buses := by
  have key : ∀ (hs : List (Header E)) (s : Setup E), HasMain s.buses → s.numOutputs = 1 →
      HasMain (hs.foldl (fun s h => effectHeader h.output h.ops h.bus h.fx s) s).buses ∧
        (hs.foldl (fun s h => effectHeader h.output h.ops h.bus h.fx s) s).numOutputs = 1 := by
    intro hs
    induction hs with
    | nil => intro s h1 h2; exact ⟨h1, h2⟩
    | cons h hs ih =>
      intro s h1 h2
      obtain ⟨g1, _, g3⟩ := effectHeader_ok h s h1
      exact ih _ g1 (g3.trans h2)
  obtain ⟨k1, k2⟩ := key hs cleared (addBuses_main 0 [] (by simp [HasMain])) rfl
  obtain ⟨m1, m2⟩ := max_outputs outputs (hs.foldl (fun s h => effectHeader h.output h.ops h.bus h.fx s) cleared).numOutputs
  unfold load finalize
  refine ⟨by simp only; omega, ?_, m2, addBuses_main _ _ k1⟩
  simp only [addBuses_length]; omega

theorem sum_single (K o : Nat) (x : ℚ × ℚ) (h : o < K) : ((List.range K).map fun i => if i = o then x else 0).sum = x := by
  induction K with
  | zero => omega
  | succ K ih =>
    rw [List.range_succ, List.map_append, List.sum_append]
    rcases Nat.lt_succ_iff_lt_or_eq.mp h with h | h
    · rw [ih h]; simp [show K ≠ o by omega]
    · subst h
      have : ((List.range o).map fun i => if i = o then x else 0) = (List.range o).map fun _ => 0 := by
        apply List.map_congr_left
        intro i hi
        rw [if_neg (by have := List.mem_range.mp hi; omega)]
      rw [this]; simp

/-- C77: an instrument without `<effect>` headers plays the plain sum of its voices, at the volume, on the pair of each output. -/
theorem mix_without_effects (hlen : ∀ e xs, (run e xs).1.length = xs.length) (n p : Nat) (hp : 0 < p) (volume : ℚ)
    (outputs : List Nat) (voices : List Voice) (hv : ∀ v ∈ voices, v.output ∈ outputs) (hg : ∀ v ∈ voices, v.gain 0 = 1) :
    ∃ bs' h, renderBlock run n (2 * p) (load ([] : List (Header E)) outputs).numOutputs volume voices (load [] outputs).buses = some (bs', h) ∧
      ∀ q < p, ∀ t < n, (h (2 * q) t, h (2 * q + 1) t)
        = volume • ((voices.filter fun v => v.output % p = q).map fun v => v.signal t).sum := by
  obtain ⟨l0, l1, l2, l3⟩ := load_outputs ([] : List (Header E)) outputs
  obtain ⟨bs', h, e, m, _⟩ := mix_of_voices run hlen n (2 * p) (load ([] : List (Header E)) outputs).numOutputs volume voices
    (load [] outputs).buses l1 (fun v hm => lt_of_lt_of_le (l2 _ (hv v hm)) l1) (fun i _ => (even_channels p i hp).2)
  refine ⟨bs', h, e, ?_⟩
  generalize hN : (load ([] : List (Header E)) outputs).numOutputs = N at *
  have hbuses : ∀ i < N, (load ([] : List (Header E)) outputs).buses.getD i [] = [some { toMain := 1 }] := by
    intro i hi
    have hall : ∀ l ∈ (load ([] : List (Header E)) outputs).buses, l = [some { toMain := 1 }] := by
      intro l hl
      simp only [load, finalize, List.foldl_nil, cleared, addBuses, List.mem_append, List.mem_replicate] at hl
      rcases hl with (hl | hl) | hl
      · simp at hl
      · exact hl.2
      · exact hl.2
    have hlt : i < (load ([] : List (Header E)) outputs).buses.length := by omega
    rw [List.getD_eq_getElem?_getD, List.getElem?_eq_getElem hlt]
    exact hall _ (List.getElem_mem _)
  have hheard : ∀ i < N, ∀ t < n, heard run n voices i 0 ((load ([] : List (Header E)) outputs).buses.getD i []) t
      = ((voices.filter fun v => v.output = i).map fun v => v.signal t).sum := by
    intro i hi t ht
    rw [hbuses i hi]
    simp only [heard, Bus.level]
    rw [if_neg (by norm_num), add_zero]
    simp only [chained, List.foldl_nil]
    rw [frames_getD n _ _ ht, add_zero, one_smul]
    unfold sent
    congr 1
    apply List.map_congr_left
    intro v hvm
    rw [hg v (List.mem_of_mem_filter hvm), one_smul]
  intro q hq t ht
  have hsum : ∀ (vs : List Voice) (K : Nat), (∀ v ∈ vs, v.output < K) →
      ((List.range K).map fun i => if i % p = q then ((vs.filter fun v => v.output = i).map fun v => v.signal t).sum else 0).sum
      = ((vs.filter fun v => v.output % p = q).map fun v => v.signal t).sum := by
    intro vs K
    induction vs with
    | nil => intro _; simp
    | cons v vs ih =>
      intro hK
      have ih := ih (fun w hw => hK w (by simp [hw]))
      have hvK := hK v (by simp)
      have split1 : ∀ i, (if i % p = q then (((v :: vs).filter fun v => v.output = i).map fun v => v.signal t).sum else 0)
          = (if i = v.output then (if v.output % p = q then v.signal t else 0) else 0)
            + (if i % p = q then ((vs.filter fun v => v.output = i).map fun v => v.signal t).sum else 0) := by
        intro i
        by_cases hi : v.output = i
        · subst hi
          by_cases hm : v.output % p = q
          · simp [hm, List.filter_cons]
          · simp [hm]
        · have hi' : ¬ i = v.output := fun e => hi e.symm
          simp [hi, hi', List.filter_cons]
      simp only [split1]
      rw [List.sum_map_add, ih]
      have hone : ((List.range K).map fun i => if i = v.output then (if v.output % p = q then v.signal t else 0) else 0).sum
          = if v.output % p = q then v.signal t else 0 := by
        exact sum_single K v.output _ hvK
      rw [hone]
      by_cases hm : v.output % p = q <;> simp [hm, List.filter_cons]
  have key : ∀ c, h c t = volume * ((List.range N).map fun i => share (2 * (i % p)) c
      (((voices.filter fun v => v.output = i).map fun v => v.signal t).sum)).sum := by
    intro c
    rw [m c t ht]
    congr 2
    apply List.map_congr_left
    intro i hi
    rw [hheard i (List.mem_range.mp hi) t ht, (even_channels p i hp).1]
  have proj : ∀ (f : ℚ × ℚ →+ ℚ) (d : Nat), (∀ i x, share (2 * (i % p)) (2 * q + d) x = if i % p = q then f x else 0) →
      h (2 * q + d) t = volume * f ((voices.filter fun v => v.output % p = q).map fun v => v.signal t).sum := by
    intro f d hf
    rw [key, ← hsum voices N (fun v hm => l2 _ (hv v hm)), map_list_sum, List.map_map]
    congr 2
    apply List.map_congr_left
    intro i _
    rw [hf]
    simp only [Function.comp]
    split
    · rfl
    · simp
  have hL := proj (AddMonoidHom.fst ℚ ℚ) 0 (by
    intro i x
    unfold share
    by_cases e : i % p = q
    · simp [e]
    · rw [if_neg (by omega), if_neg (by omega), if_neg e])
  have hR := proj (AddMonoidHom.snd ℚ ℚ) 1 (by
    intro i x
    unfold share
    by_cases e : i % p = q
    · rw [if_neg (by omega), if_pos (by omega), if_pos e]; rfl
    · rw [if_neg (by omega), if_neg (by omega), if_neg e])
  rw [add_zero] at hL
  rw [hL, hR]
  rfl

/-! ### What the headers ask for -/

/-- The effects asked for on bus `k` of output `i`, in the order of the file. -/
def wantEffects (hs : List (Header E)) (i k : Nat) : List E :=
  (hs.filter fun h => h.output = i ∧ h.bus = some k ∧ k ≤ 256).map Header.fx

/-- The gains asked for, in the order of the file. -/
def gainsAsked (hs : List (Header E)) (i : Nat) : List GainOp := (hs.filter fun h => h.output = i).flatMap Header.ops

/-- The gain into the main signal: the last one written counts. Without any it is 1 for the main bus and 0 for the others. -/
def wantMain (ops : List GainOp) (k : Nat) : ℚ :=
  ((ops.filterMap fun
    | .directToMain g => if k = 0 then some g else none
    | .toMain j g => if j = k ∧ 1 ≤ k ∧ k ≤ 256 then some g else none
    | .toMix _ _ => none).getLast?).getD (if k = 0 then 1 else 0)

/-- The gain into the mix signal: the last one written counts, without any it is 0. -/
def wantMix (ops : List GainOp) (k : Nat) : ℚ :=
  ((ops.filterMap fun
    | .toMix j g => if j = k ∧ 1 ≤ k ∧ k ≤ 256 then some g else none
    | _ => none).getLast?).getD 0

/-- The setup of a bus; a bus that is absent is as good as one without effects and gains. -/
def view (bs : Buses E) (i k : Nat) : List E × ℚ × ℚ :=
  match bs[i]? with
  | none => if k = 0 then ([], 1, 0) else ([], 0, 0)
  | some l => (((l[k]?).join).getD {}).shape

theorem view_add (output : Nat) (bs : Buses E) (i k : Nat) : view (addBuses output bs) i k = view bs i k := by
  unfold view addBuses
  by_cases h : i < bs.length
  · rw [List.getElem?_append_left h]
  · rw [List.getElem?_append_right (by omega), List.getElem?_eq_none (l := bs) (by omega)]
    rw [List.getElem?_replicate]
    split
    · rename_i e; split at e
      · simp at e
      · rfl
    · rename_i l e; split at e
      · simp only [Option.some.injEq] at e
        subst e
        cases k with
        | zero => rfl
        | succ k => rfl
      · simp at e

theorem view_with (output index : Nat) (f : Bus E → Bus E) (g : List E × ℚ × ℚ → List E × ℚ × ℚ)
    (hf : ∀ b, (f b).shape = g b.shape) (bs : Buses E) (ho : output < bs.length) (i k : Nat) :
    view (withBus output index f bs) i k = if i = output ∧ k = index then g (view bs i k) else view bs i k := by
  unfold view withBus
  rw [List.getElem?_modify]
  by_cases hi : i = output
  · subst hi
    rw [List.getElem?_eq_getElem ho]
    simp only [if_true, Option.map_eq_map, Option.map_some, true_and, List.getElem?_modify]
    generalize bs[i] = l
    by_cases hk : k = index
    · subst hk
      simp only [if_true]
      by_cases hl : k < l.length
      · rw [List.getElem?_append_left hl, List.getElem?_eq_getElem hl]
        simp only [Option.map_some, Option.join_some, Option.getD_some, hf]
      · rw [List.getElem?_append_right (by omega), List.getElem?_replicate, if_pos (by omega), List.getElem?_eq_none (l := l) (by omega)]
        simp only [Option.map_some, Option.join_some, Option.getD_some, hf, Option.getD_none, Option.join_none]
    · have hk' : ¬ index = k := fun e => hk e.symm
      simp only [if_neg hk, if_neg hk']
      by_cases hl : k < l.length
      · rw [List.getElem?_append_left hl]; simp
      · rw [List.getElem?_append_right (by omega), List.getElem?_eq_none (l := l) (by omega), List.getElem?_replicate]
        split <;> rfl
  · have hi' : ¬ output = i := fun e => hi e.symm
    simp only [if_neg hi', hi, false_and, if_false]
    cases bs[i]? <;> rfl

/-- What one gain opcode does to the setup of a bus. -/
def opEffect (k : Nat) (v : List E × ℚ × ℚ) : GainOp → List E × ℚ × ℚ
  | .directToMain g => if k = 0 then (v.1, g, v.2.2) else v
  | .toMain j g => if j = k ∧ 1 ≤ k ∧ k ≤ 256 then (v.1, g, v.2.2) else v
  | .toMix j g => if j = k ∧ 1 ≤ k ∧ k ≤ 256 then (v.1, v.2.1, g) else v

theorem view_op (output : Nat) (bs : Buses E) (ho : output < bs.length) (op : GainOp) (i k : Nat) :
    view (gainOp output bs op) i k = if i = output then opEffect k (view bs i k) op else view bs i k := by
  cases op with
  | directToMain g =>
    rw [show gainOp output bs (.directToMain g) = withBus output 0 (fun b => { b with toMain := g }) bs from rfl,
      view_with output 0 _ (fun v => (v.1, g, v.2.2)) (fun _ => rfl) bs ho]
    simp only [opEffect]
    by_cases h1 : i = output <;> by_cases h2 : k = 0 <;> simp [h1, h2]
  | toMain j g =>
    have hM : maxEffectBuses = 256 := rfl
    simp only [gainOp, opEffect]
    by_cases hj : j < 1 ∨ j > maxEffectBuses
    · rw [if_pos hj]
      have hn : ¬ (j = k ∧ 1 ≤ k ∧ k ≤ 256) := by omega
      simp only [if_neg hn, ite_self]
    · rw [if_neg hj, view_with output j _ (fun v => (v.1, g, v.2.2)) (fun _ => rfl) bs ho]
      by_cases h1 : i = output <;> by_cases h2 : k = j
      · subst h2; rw [if_pos ⟨h1, rfl⟩, if_pos h1, if_pos (by omega)]
      · rw [if_neg (by omega), if_pos h1, if_neg (by omega)]
      · rw [if_neg (by omega), if_neg h1]
      · rw [if_neg (by omega), if_neg h1]
  | toMix j g =>
    have hM : maxEffectBuses = 256 := rfl
    simp only [gainOp, opEffect]
    by_cases hj : j < 1 ∨ j > maxEffectBuses
    · rw [if_pos hj]
      have hn : ¬ (j = k ∧ 1 ≤ k ∧ k ≤ 256) := by omega
      simp only [if_neg hn, ite_self]
    · rw [if_neg hj, view_with output j _ (fun v => (v.1, v.2.1, g)) (fun _ => rfl) bs ho]
      by_cases h1 : i = output <;> by_cases h2 : k = j
      · subst h2; rw [if_pos ⟨h1, rfl⟩, if_pos h1, if_pos (by omega)]
      · rw [if_neg (by omega), if_pos h1, if_neg (by omega)]
      · rw [if_neg (by omega), if_neg h1]
      · rw [if_neg (by omega), if_neg h1]

theorem gainOp_length (output : Nat) (bs : Buses E) (op : GainOp) : (gainOp output bs op).length = bs.length := by
  cases op <;> simp only [gainOp]
  · exact withBus_length _ _ _ _
  · split
    · rfl
    · exact withBus_length _ _ _ _
  · split
    · rfl
    · exact withBus_length _ _ _ _

theorem view_ops (output i k : Nat) (ops : List GainOp) : ∀ bs : Buses E, output < bs.length →
    (ops.foldl (gainOp output) bs).length = bs.length ∧
    view (ops.foldl (gainOp output) bs) i k = if i = output then ops.foldl (opEffect k) (view bs i k) else view bs i k := by
  induction ops with
  | nil => intro bs _; simp
  | cons op ops ih =>
    intro bs ho
    have hl := gainOp_length output bs op
    obtain ⟨h1, h2⟩ := ih (gainOp output bs op) (by omega)
    refine ⟨h1.trans hl, ?_⟩
    rw [List.foldl_cons, h2, view_op output bs ho]
    split <;> rfl

/-- What one header does to the setup of a bus. -/
def headerEffect (i k : Nat) (v : List E × ℚ × ℚ) (h : Header E) : List E × ℚ × ℚ :=
  if h.output = i then
    let w := h.ops.foldl (opEffect k) v
    if h.bus = some k ∧ k ≤ 256 then (w.1 ++ [h.fx], w.2) else w
  else v

theorem view_header (h : Header E) (s : Setup E) (i k : Nat) :
    view (effectHeader h.output h.ops h.bus h.fx s).buses i k = headerEffect i k (view s.buses i k) h := by
  have hl : h.output < (addBuses h.output s.buses).length := by rw [addBuses_length]; omega
  obtain ⟨h1, h2⟩ := view_ops h.output i k h.ops _ hl
  rw [view_add] at h2
  unfold effectHeader headerEffect
  cases hb : h.bus with
  | none =>
    simp only [reduceCtorEq, false_and, if_false]
    rw [h2]
    by_cases e : i = h.output
    · rw [if_pos e, if_pos e.symm]
    · rw [if_neg e, if_neg (Ne.symm e)]
  | some j =>
    have hM : maxEffectBuses = 256 := rfl
    simp only
    by_cases hj : j ≤ maxEffectBuses
    · rw [if_pos hj]
      rw [hM] at hj
      simp only
      rw [view_with h.output j _ (fun v => (v.1 ++ [h.fx], v.2)) (fun _ => rfl) _ (by omega), h2]
      by_cases e : i = h.output
      · rw [if_pos e, if_pos e.symm]
        by_cases ek : k = j
        · subst ek; rw [if_pos ⟨e, rfl⟩, if_pos ⟨rfl, hj⟩]
        · rw [if_neg (by omega), if_neg (by rintro ⟨e1, _⟩; exact ek (Option.some.inj e1).symm)]
      · rw [if_neg e, if_neg (Ne.symm e), if_neg (by omega)]
    · rw [if_neg hj]
      simp only
      rw [h2]
      by_cases e : i = h.output
      · rw [if_pos e, if_pos e.symm, if_neg (by rintro ⟨e1, e2⟩; have := Option.some.inj e1; omega)]
      · rw [if_neg e, if_neg (Ne.symm e)]

theorem ops_fold (k : Nat) (ops : List GainOp) : ∀ v : List E × ℚ × ℚ, ops.foldl (opEffect k) v
    = (v.1, ((ops.filterMap fun
        | .directToMain g => if k = 0 then some g else none
        | .toMain j g => if j = k ∧ 1 ≤ k ∧ k ≤ 256 then some g else none
        | .toMix _ _ => none).getLast?).getD v.2.1,
      ((ops.filterMap fun
        | .toMix j g => if j = k ∧ 1 ≤ k ∧ k ≤ 256 then some g else none
        | _ => none).getLast?).getD v.2.2) := by
  have last : ∀ (x : ℚ) (l : List ℚ) (d : ℚ), ((x :: l).getLast?).getD d = (l.getLast?).getD x := by
    intro x l d
    cases l with
    | nil => rfl
    | cons y l => simp [List.getLast?_cons]
  induction ops with
  | nil => intro v; rfl
  | cons op ops ih =>
    intro v
    rw [List.foldl_cons, ih]
    cases op with
    | directToMain g =>
      simp only [opEffect, List.filterMap_cons]
      split <;> simp only [last]
    | toMain j g =>
      simp only [opEffect, List.filterMap_cons]
      split <;> simp only [last]
    | toMix j g =>
      simp only [opEffect, List.filterMap_cons]
      split <;> simp only [last]

theorem header_fold (i k : Nat) (hs : List (Header E)) : ∀ v : List E × ℚ × ℚ, hs.foldl (headerEffect i k) v
    = (v.1 ++ wantEffects hs i k, ((gainsAsked hs i).foldl (opEffect k) v).2) := by
  have opfst : ∀ (ops : List GainOp) (v : List E × ℚ × ℚ), (ops.foldl (opEffect k) v).1 = v.1 := by
    intro ops v; rw [ops_fold]
  have opsnd : ∀ (ops : List GainOp) (v w : List E × ℚ × ℚ), v.2 = w.2 → (ops.foldl (opEffect k) v).2 = (ops.foldl (opEffect k) w).2 := by
    intro ops v w h; rw [ops_fold, ops_fold, h]
  induction hs with
  | nil => intro v; simp [wantEffects, gainsAsked]
  | cons h hs ih =>
    intro v
    rw [List.foldl_cons, ih]
    unfold headerEffect wantEffects gainsAsked
    by_cases e : h.output = i
    · simp only [e, if_true, List.filter_cons, true_and, decide_true, List.flatMap_cons, List.foldl_append]
      by_cases eb : h.bus = some k ∧ k ≤ 256
      · simp only [eb, and_self, if_true, decide_true, List.map_cons, opfst, Prod.mk.injEq]
        exact ⟨by simp, opsnd _ _ _ rfl⟩
      · simp only [if_neg eb, decide_eq_true_eq, opfst]
    · simp [e]

/-- C77, setup: after loading, bus `k` of output `i` has the effects asked for it by the headers, in the order of the file, and
the last gains written for it. -/
theorem load_buses (hs : List (Header E)) (outputs : List Nat) (i k : Nat) :
    view (load hs outputs).buses i k
      = (wantEffects hs i k, wantMain (gainsAsked hs i) k, wantMix (gainsAsked hs i) k) := by
  unfold load finalize
  simp only [view_add]
  have key : ∀ (hs : List (Header E)) (s : Setup E),
      view (hs.foldl (fun s h => effectHeader h.output h.ops h.bus h.fx s) s).buses i k = hs.foldl (headerEffect i k) (view s.buses i k) := by
    intro hs
    induction hs with
    | nil => intro s; rfl
    | cons h hs ih => intro s; rw [List.foldl_cons, ih, view_header]; rfl
  have h0 : view (cleared : Setup E).buses i k = ([], if k = 0 then 1 else 0, 0) := by
    rw [show (cleared : Setup E).buses = addBuses 0 [] from rfl, view_add]
    unfold view
    simp only [List.getElem?_nil]
    split <;> rfl
  rw [key, h0, header_fold, ops_fold]
  rfl

/-! ### Cases -/

/-- A stereo effect for the cases: a gain that counts its runs. -/
def amp (e : ℚ × Nat) (xs : List (ℚ × ℚ)) : List (ℚ × ℚ) × (ℚ × Nat) := (xs.map fun x => e.1 • x, (e.1, e.2 + 1))

theorem amp_length (e : ℚ × Nat) (xs : List (ℚ × ℚ)) : (amp e xs).1.length = xs.length := by simp [amp]

/-- Two headers: an amplifier by 3 on bus 1 of output 0, a half of which goes to the main signal, and one by 10 on the main bus
of output 1. -/
def caseHeaders : List (Header (ℚ × Nat)) :=
  [⟨0, [.toMain 1 (1/2)], some 1, (3, 0)⟩, ⟨1, [], some 0, (10, 0)⟩]

def caseVoices : List Voice :=
  [{ gains := [1, 1/3], signal := fun _ => (2, 4) }, { output := 1, signal := fun _ => (1, 1) }, { signal := fun _ => (5, 0) }]

/-- The hypotheses of `mix_of_voices` are met, with two outputs on four channels, and the result is the expected one:
2 + 5 plus half of three times a third of 2; on the second pair ten times 1. -/
example : (∀ v ∈ caseVoices, v.output < (load caseHeaders [0, 1]).buses.length) ∧
    (∀ i < (load caseHeaders [0, 1]).numOutputs, outputStart 4 i + 1 < 4) ∧
    ((renderBlock amp 1 4 2 1 caseVoices (load caseHeaders [0, 1]).buses).map fun r => (r.2 0 0, r.2 1 0, r.2 2 0, r.2 3 0))
      = some (8, 6, 10, 10) := by decide +kernel

/-- The region's bus gains of the case: `mix_without_effects`. -/
example : ∀ v ∈ caseVoices, v.gain 0 = 1 := by decide +kernel

/-- C77 does not hold for every use of the API: the output of a region set to 5 by a message while notes play is outside of the
table of buses (`/region&/output`, SynthMessaging.cpp, changes the region and nothing else). -/
theorem output_message_violated :
    (renderBlock amp 1 2 (load caseHeaders [0]).numOutputs 1 [{ output := 5, signal := fun _ => (1, 1) }] (load caseHeaders [0]).buses).isNone
      = true := by decide +kernel

/-- With an output one above those of the instrument the bus exists, but is not mixed: the voice is lost, on any pair. -/
theorem output_message_silent_violated :
    ((renderBlock amp 1 4 (load caseHeaders [0]).numOutputs 1 [{ output := 1, signal := fun _ => (1, 1) }] (load caseHeaders [0]).buses).map
      fun r => (r.2 0 0, r.2 1 0, r.2 2 0, r.2 3 0)) = some (0, 0, 0, 0) := by decide +kernel

/-- One channel, or an odd number with several outputs, is not enough: a channel that does not exist is used. -/
theorem odd_channels_violated :
    (renderBlock amp 1 1 1 1 caseVoices (load caseHeaders [0, 1]).buses).isNone = true ∧
    (renderBlock amp 1 3 2 1 caseVoices (load caseHeaders [0, 1]).buses).isNone = true := by decide +kernel

end Verif.Mixer
