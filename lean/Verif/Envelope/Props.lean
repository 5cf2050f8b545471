import Verif.Envelope.Model
import Verif.Midi.Starts
import Mathlib.Tactic.Ring
import Mathlib.Tactic.FieldSimp
import Mathlib.Tactic.Linarith
import Mathlib.Algebra.Order.Group.Unbundled.Abs

/-! C40: the rendering of controller events to one value per frame. -/
namespace Verif.Envelope
open Verif.Midi (Event EventVector Sorted Starts)

/-! ### Lemmas -/

theorem subspan_ok {size : Nat} {pos len : Int} (h0 : 0 ≤ pos) (h1 : 0 ≤ len) (h2 : pos + len ≤ size) :
    subspan size pos len = some (pos.toNat, len.toNat) := by
  unfold subspan
  rw [if_pos ⟨h0, by omega⟩, if_neg (by omega)]
  congr 2
  omega

theorem subspan_rest {size : Nat} {pos : Int} (h0 : 0 ≤ pos) (h2 : pos ≤ size) :
    subspan size pos (-1) = some (pos.toNat, size - pos.toNat) := by
  unfold subspan
  rw [if_pos ⟨h0, by omega⟩, if_pos (by omega)]

/-- The polyline through the events, up to frame `m`, from time `d` and value `v` on. -/
def lineAt (f : ℚ → ℚ) (m : Int) (d : Int) (v : ℚ) : EventVector → Int → ℚ
  | [], _ => v
  | e :: es, i =>
    if d < m then
      if i < min e.delay m then v + (f e.value - v) * ((i - d : Int) : ℚ) / ((min e.delay m - d : Int) : ℚ)
      else lineAt f m (min e.delay m) (f e.value) es i
    else v

theorem linearLoop_spec (f : ℚ → ℚ) (size : Nat) (hs : 0 < size) (es : EventVector) :
    ∀ (log : Log) (v : ℚ) (d : Int), 0 ≤ d → d ≤ (size : Int) - 1 → (∀ e ∈ es, d < e.delay) → Sorted es →
      (∀ i : Nat, d ≤ i → log i = []) →
      ∃ log' v' d', linearLoop f size log v d es = some (log', v', d') ∧ d ≤ d' ∧ d' ≤ (size : Int) - 1 ∧
        (∀ i : Nat, (i : Int) < d → log' i = log i) ∧ (∀ i : Nat, d' ≤ i → log' i = []) ∧
        (∀ i : Nat, d ≤ i → (i : Int) < d' → log' i = [lineAt f ((size : Int) - 1) d v es i]) ∧
        (∀ i : Int, d' ≤ i → i ≤ (size : Int) - 1 → lineAt f ((size : Int) - 1) d v es i = v') := by
  induction es with
  | nil =>
    intro log v d h0 h1 _ _ hl
    exact ⟨log, v, d, rfl, le_refl _, h1, fun _ _ => rfl, hl, fun i a b => by omega, fun _ _ _ => rfl⟩
  | cons e es ih =>
    intro log v d h0 h1 he hsd hl
    by_cases hd : d < (size : Int) - 1
    · obtain ⟨hs1, hs2⟩ := List.pairwise_cons.mp hsd
      have hde := he e (by simp)
      have hlen : 0 < min e.delay ((size : Int) - 1) - d := by omega
      generalize hm : min e.delay ((size : Int) - 1) = m at hlen
      have hsub := subspan_ok (size := size) (pos := d) (len := m - d) h0 (by omega) (by omega)
      have hq : ((m - d : Int) : ℚ) ≠ 0 := by
        have : (m - d : Int) ≠ 0 := by omega
        exact_mod_cast this
      have hv : v + ((m - d).toNat : ℚ) * ((f e.value - v) / ((m - d : Int) : ℚ)) = f e.value := by
        have : (((m - d).toNat : Nat) : ℚ) = ((m - d : Int) : ℚ) := by
          have h := Int.toNat_of_nonneg (show 0 ≤ m - d by omega)
          exact_mod_cast congrArg (fun z : Int => (z : ℚ)) h
        rw [this]; field_simp; ring
      obtain ⟨log', v', d', e1, e2, e3, e4, e5, e6, e7⟩ := ih
        (write log d.toNat (m - d).toNat (fun k => v + k * ((f e.value - v) / ((m - d : Int) : ℚ)))) (f e.value) m
        (by omega) (by omega) (fun x hx => by have := hs1 x hx; omega) hs2
        (fun i hi => by unfold write; rw [if_neg (by omega)]; exact hl i (by omega))
      refine ⟨log', v', d', ?_, by omega, e3, ?_, e5, ?_, ?_⟩
      · unfold linearLoop
        rw [if_pos hd, hm, if_neg (by omega)]
        unfold rampSpan
        rw [hsub]
        simp only [Option.map_some]
        rw [hv, show d + (m - d) = m by omega]
        exact e1
      · intro i hi
        rw [e4 i (by omega)]; unfold write; rw [if_neg (by omega)]
      · intro i hi hi'
        by_cases him : (i : Int) < m
        · rw [e4 i him]
          unfold write lineAt
          rw [if_pos (by omega), if_pos hd, hm, if_pos him, hl i hi, List.nil_append]
          congr 1
          have : (((i - d.toNat : Nat)) : ℚ) = ((i - d : Int) : ℚ) := by
            have h : ((i - d.toNat : Nat) : Int) = (i : Int) - d := by omega
            exact_mod_cast congrArg (fun z : Int => (z : ℚ)) h
          dsimp only
          rw [this]; ring
        · rw [e6 i (by omega) hi']
          conv_rhs => unfold lineAt
          rw [if_pos hd, hm, if_neg him]
      · intro i hi hi'
        rw [← e7 i hi hi']
        conv_lhs => unfold lineAt
        rw [if_pos hd, hm, if_neg (by omega)]
    · refine ⟨log, v, d, ?_, le_refl _, h1, fun _ _ => rfl, hl, fun i a b => by omega, fun i _ _ => ?_⟩
      · unfold linearLoop; rw [if_neg hd]
      · unfold lineAt; rw [if_neg hd]

theorem linear_spec (f : ℚ → ℚ) (v : ℚ) (es : EventVector) (h : Sorted (⟨0, v⟩ :: es)) (size : Nat) :
    ∃ log, linearEnvelope f (⟨0, v⟩ :: es) size = some log ∧ (∀ i, size ≤ i → log i = []) ∧
      ∀ i, i < size → log i = [lineAt f ((size : Int) - 1) 0 (f v) es i] := by
  by_cases h0 : size = 0
  · refine ⟨fun _ => [], ?_, fun _ _ => rfl, fun i hi => by omega⟩
    unfold linearEnvelope; simp [h0]
  · obtain ⟨h1, h2⟩ := List.pairwise_cons.mp h
    obtain ⟨log', v', d', e1, e2, e3, e4, e5, e6, e7⟩ := linearLoop_spec f size (by omega) es (fun _ => []) (f v) 0
      (le_refl _) (by omega) h1 h2 (fun _ _ => rfl)
    refine ⟨write log' d'.toNat (size - d'.toNat) (fun _ => v'), ?_, ?_, ?_⟩
    · unfold linearEnvelope
      simp only
      rw [if_neg h0, e1]
      simp only [fillRest]
      rw [subspan_rest e2 (by omega)]
      rfl
    · intro i hi
      unfold write; rw [if_neg (by omega)]; exact e5 i (by omega)
    · intro i hi
      unfold write
      by_cases hid : (i : Int) < d'
      · rw [if_neg (by omega)]; exact e6 i (by omega) hid
      · rw [if_pos (by omega), e5 i (by omega), e7 i (by omega) (by omega)]; rfl

theorem lineAt_start (f : ℚ → ℚ) (m d : Int) (v : ℚ) (es : EventVector) (h : ∀ e ∈ es, d < e.delay) :
    lineAt f m d v es d = v := by
  cases es with
  | nil => rfl
  | cons e es =>
    unfold lineAt
    have := h e (by simp)
    split
    · rw [if_pos (by omega)]; simp
    · rfl

theorem lineAt_segment (f : ℚ → ℚ) (m d : Int) (v : ℚ) (b : Event) (q : EventVector) (hs : Sorted (b :: q)) (hb : d < b.delay)
    (hdm : d ≤ m) (i : Int) (h1 : d ≤ i) (h2 : i ≤ b.delay) (h3 : i ≤ m) :
    lineAt f m d v (b :: q) i = v + (f b.value - v) * ((i - d : Int) : ℚ) / ((min b.delay m - d : Int) : ℚ) := by
  unfold lineAt
  by_cases hd : d < m
  · rw [if_pos hd]
    by_cases hi : i < min b.delay m
    · rw [if_pos hi]
    · have him : i = min b.delay m := by omega
      rw [if_neg hi, him, lineAt_start]
      · have : ((min b.delay m - d : Int) : ℚ) ≠ 0 := by
          have : min b.delay m - d ≠ 0 := by omega
          exact_mod_cast this
        field_simp; ring
      · intro e he
        have := (List.pairwise_cons.mp hs).1 e he
        omega
  · have : i = d := by omega
    rw [if_neg hd, this]; simp

theorem lineAt_later (f : ℚ → ℚ) (m : Int) (q : EventVector) (a : Event) : ∀ (p : EventVector) (d : Int) (v : ℚ),
    d ≤ m → (∀ e ∈ p ++ a :: q, d < e.delay) → Sorted (p ++ a :: q) → ∀ i, a.delay ≤ i → i ≤ m →
    lineAt f m d v (p ++ a :: q) i = lineAt f m a.delay (f a.value) q i := by
  intro p
  induction p with
  | nil =>
    intro d v hd he hs i h1 h2
    have := he a (by simp)
    rw [List.nil_append]
    conv_lhs => unfold lineAt
    rw [if_pos (by omega), if_neg (by omega), min_eq_left (by omega)]
  | cons e p ih =>
    intro d v hd he hs i h1 h2
    have h3 := he e (by simp)
    rw [List.cons_append] at hs ⊢
    obtain ⟨hs1, hs2⟩ := List.pairwise_cons.mp hs
    have h4 := hs1 a (by simp)
    conv_lhs => unfold lineAt
    rw [if_pos (by omega), if_neg (by omega), min_eq_left (by omega)]
    exact ih e.delay (f e.value) (by omega) (fun x hx => hs1 x hx) hs2 i h1 h2

/-! ### The plain envelope -/

/-- What the envelope of `events` (values mapped by `f`) over `size` frames has to be: one value per frame of the block and
none outside; between two consecutive events the straight line from one to the other, an event beyond the block counting as
one at the last frame; from the last event on its value. -/
structure IsEnvelope (f : ℚ → ℚ) (events : EventVector) (size : Nat) (log : Log) : Prop where
  outside : ∀ i, size ≤ i → log i = []
  once : ∀ i, i < size → ∃ y, log i = [y]
  line : ∀ (p : EventVector) (a b : Event) (q : EventVector), events = p ++ a :: b :: q →
    ∀ i : Nat, i < size → a.delay ≤ (i : Int) → (i : Int) ≤ b.delay →
    log i = [f a.value + (f b.value - f a.value) * ((i : Int) - a.delay : Int) / (min b.delay ((size : Int) - 1) - a.delay : Int)]
  last : ∀ (p : EventVector) (z : Event), events = p ++ [z] → ∀ i : Nat, i < size → z.delay ≤ (i : Int) → log i = [f z.value]

/-- **C40.** For every history of MIDI calls with delays that are not negative, every controller and every block size, the
rendering completes and gives the envelope of the stored events. -/
theorem linear_envelope (ops : List Midi.Op) (hop : ∀ op ∈ ops, 0 ≤ op.delay) (t : Midi.Target) (f : ℚ → ℚ) (size : Nat) :
    ∃ log, linearEnvelope f (Midi.vec (Midi.run ops) t) size = some log ∧ IsEnvelope f (Midi.vec (Midi.run ops) t) size log := by
  obtain ⟨hs, v, es, hv⟩ := Midi.starts_run ops hop t
  rw [hv] at hs ⊢
  obtain ⟨log, e1, e2, e3⟩ := linear_spec f v es hs size
  obtain ⟨h1, h2⟩ := List.pairwise_cons.mp hs
  refine ⟨log, e1, e2, fun i hi => ⟨_, e3 i hi⟩, ?_, ?_⟩
  · intro p a b q he i hi ha hb
    rw [e3 i hi]
    congr 1
    cases p with
    | nil =>
      simp only [List.nil_append, List.cons.injEq] at he
      obtain ⟨rfl, rfl⟩ := he
      have := lineAt_segment f ((size : Int) - 1) 0 (f v) b q h2 (h1 b (by simp)) (by omega) i ha hb (by omega)
      exact this
    | cons c p =>
      simp only [List.cons_append, List.cons.injEq] at he
      obtain ⟨rfl, rfl⟩ := he
      rw [lineAt_later f ((size : Int) - 1) (b :: q) a p 0 (f v) (by omega) h1 h2 i ha (by omega)]
      have h4 : Sorted (a :: b :: q) := (List.pairwise_append.mp h2).2.1
      obtain ⟨h5, h6⟩ := List.pairwise_cons.mp h4
      exact lineAt_segment f ((size : Int) - 1) a.delay (f a.value) b q h6 (h5 b (by simp)) (by omega) i ha hb (by omega)
  · intro p z he i hi hz
    rw [e3 i hi]
    congr 1
    cases p with
    | nil =>
      simp only [List.nil_append, List.cons.injEq] at he
      obtain ⟨rfl, rfl⟩ := he
      rfl
    | cons c p =>
      simp only [List.cons_append, List.cons.injEq] at he
      obtain ⟨rfl, rfl⟩ := he
      rw [lineAt_later f ((size : Int) - 1) [] z p 0 (f v) (by omega) h1 h2 i hz (by omega)]
      rfl

example : (linearEnvelope (fun x => x) (Midi.vec (Midi.run [.cc 0 7 1, .cc 4 7 3, .cc 9 7 0]) (.cc 7)) 6).map
    (fun l => (List.range 7).map l) = some [[1], [3/2], [2], [5/2], [3], [0], []] := by decide +kernel

/-- **C40, events.** In particular the envelope passes through the value of every event inside the block at its frame. -/
theorem envelope_through_events (ops : List Midi.Op) (hop : ∀ op ∈ ops, 0 ≤ op.delay) (t : Midi.Target) (f : ℚ → ℚ) (size : Nat) :
    ∃ log, linearEnvelope f (Midi.vec (Midi.run ops) t) size = some log ∧
      ∀ e ∈ Midi.vec (Midi.run ops) t, ∀ i : Nat, e.delay = i → i < size → log i = [f e.value] := by
  obtain ⟨log, h1, h2⟩ := linear_envelope ops hop t f size
  refine ⟨log, h1, fun e he i hd hi => ?_⟩
  obtain ⟨p, q, hpq⟩ := List.append_of_mem he
  cases q with
  | nil => exact h2.last p e hpq i hi (by omega)
  | cons b q =>
    have hs := (Midi.starts_run ops hop t).1
    rw [hpq] at hs
    have h3 := (List.pairwise_cons.mp (List.pairwise_append.mp hs).2.1).1 b (by simp)
    rw [h2.line p e b q hpq i hi (by omega) (by omega)]
    simp [hd]

example : (⟨4, 3⟩ : Event) ∈ Midi.vec (Midi.run [.cc 0 7 1, .cc 4 7 3, .cc 9 7 0]) (.cc 7) := by decide +kernel

/-! ### The quantized envelope -/

/-- Frames before `d` hold one value satisfying `P`, the others nothing. -/
def Written (P : ℚ → Prop) (log : Log) (d : Int) : Prop :=
  (∀ i : Nat, (i : Int) < d → ∃ y, log i = [y] ∧ P y) ∧ ∀ i : Nat, d ≤ i → log i = []

theorem written_write {P : ℚ → Prop} {log : Log} {d : Int} (h : Written P log d) (h0 : 0 ≤ d) {n : Nat} {v : ℚ} (hv : P v) :
    Written P (write log d.toNat n (fun _ => v)) (d + n) := by
  constructor
  · intro i hi
    unfold write
    by_cases hid : (i : Int) < d
    · rw [if_neg (by omega)]; exact h.1 i hid
    · rw [if_pos (by omega), h.2 i (by omega)]; exact ⟨v, rfl, hv⟩
  · intro i hi
    unfold write
    rw [if_neg (by omega)]; exact h.2 i (by omega)

/-- Multiples of the step within bounds. -/
def OnGrid (step lo hi : ℚ) (y : ℚ) : Prop := (∃ k : Int, y = k * step) ∧ lo ≤ y ∧ y ≤ hi

theorem write_keep {log : Log} {d : Int} {n : Nat} {g : Nat → ℚ} (h0 : 0 ≤ d) (i : Nat) (hi : (i : Int) < d) :
    write log d.toNat n g i = log i := by unfold write; rw [if_neg (by omega)]

theorem stepLoop_spec {P : ℚ → Prop} {size : Nat} {step : ℚ} (hstep : 0 < step) {next : ℚ} {len : Int} (hlen : 0 ≤ len)
    (n : Nat) : ∀ (log : Log) (v : ℚ) (d : Int), 0 ≤ d → d + n * len ≤ size → Written P log d →
      (∀ k : Nat, k ≤ n → P (v + k * (if v ≤ next then step else -step))) →
      (next = v + n * (if v ≤ next then step else -step)) →
      ∃ log', stepLoop size step next len log v d n = some (log', next, d + n * len) ∧ Written P log' (d + n * len) ∧
        ∀ i : Nat, (i : Int) < d → log' i = log i := by
  induction n with
  | zero =>
    intro log v d h0 h1 hw hP hnext
    refine ⟨log, ?_, by simpa using hw, fun _ _ => rfl⟩
    unfold stepLoop
    simp only [Nat.cast_zero, zero_mul, add_zero] at hnext ⊢
    rw [← hnext]
  | succ n ih =>
    intro log v d h0 h1 hw hP hnext
    have hnl : 0 ≤ (n : Int) * len := Int.mul_nonneg (by omega) hlen
    have h1' : d + len + n * len ≤ size := by push_cast at h1; linarith
    have hsub := subspan_ok (size := size) (pos := d) (len := len) h0 hlen (by omega)
    generalize hδ : (if v ≤ next then step else -step) = δ at hP hnext
    have hsame : ∀ m : Nat, m ≤ n → (v + δ ≤ next ↔ v ≤ next) ∨ n = 0 := by
      intro m hm
      by_cases hn0 : n = 0
      · right; exact hn0
      · left
        have hnp : (1 : ℚ) ≤ n := by exact_mod_cast (show 1 ≤ n by omega)
        by_cases hvn : v ≤ next
        · rw [if_pos hvn] at hδ
          subst hδ
          refine ⟨fun _ => hvn, fun _ => ?_⟩
          push_cast at hnext
          nlinarith
        · rw [if_neg hvn] at hδ
          subst hδ
          refine ⟨fun h => absurd ?_ hvn, fun h => absurd h hvn⟩
          push_cast at hnext
          nlinarith
    obtain ⟨log', e1, e2, e3⟩ := ih (write log d.toNat len.toNat (fun _ => v)) (v + δ) (d + len) (by omega) (by omega)
      (by
        have := written_write (n := len.toNat) hw h0 (by simpa using hP 0 (by omega))
        rwa [show d + (len.toNat : Int) = d + len by omega] at this)
      (by
        intro k hk
        rcases hsame k hk with hh | hh
        · have : (if v + δ ≤ next then step else -step) = δ := by rw [if_congr hh rfl rfl, hδ]
          rw [this]
          have := hP (k + 1) (by omega)
          push_cast at this
          rwa [show v + (k + 1) * δ = v + δ + k * δ by ring] at this
        · have hk0 : k = 0 := by omega
          subst hk0
          have := hP 1 (by omega)
          simpa using this)
      (by
        rcases hsame 0 (by omega) with hh | hh
        · have : (if v + δ ≤ next then step else -step) = δ := by rw [if_congr hh rfl rfl, hδ]
          rw [this, hnext]; push_cast; ring
        · subst hh; rw [hnext]; simp)
    refine ⟨log', ?_, ?_, fun i hi => ?_⟩
    · unfold stepLoop fill
      rw [hsub]
      simp only [Option.map_some]
      rw [hδ, e1]
      congr 3
      push_cast; ring
    · rwa [show d + ((n + 1 : Nat) : Int) * len = d + len + n * len by push_cast; ring]
    · rw [e3 i (by omega), write_keep h0 i hi]

theorem quantize_grid (step x : ℚ) : ∃ k : Int, quantize step x = k * step := ⟨_, rfl⟩

/-- Two multiples of the step: their distance in steps. -/
theorem grid_distance {step a b : ℚ} (hs : 0 < step) (ha : ∃ k : Int, a = k * step) (hb : ∃ k : Int, b = k * step) :
    ∃ n : Nat, |b - a| = n * step ∧ b = a + n * (if a ≤ b then step else -step) ∧ trunc (|b - a| / step) = n := by
  obtain ⟨k, rfl⟩ := ha
  obtain ⟨l, rfl⟩ := hb
  have key : ∃ n : Nat, |(l : ℚ) * step - k * step| = n * step ∧
      (l : ℚ) * step = k * step + n * (if (k : ℚ) * step ≤ l * step then step else -step) := by
    by_cases h : k ≤ l
    · have hq : (k : ℚ) ≤ l := by exact_mod_cast h
      refine ⟨(l - k).toNat, ?_, ?_⟩
      · have : (((l - k).toNat : Nat) : ℚ) = l - k := by
          have := Int.toNat_of_nonneg (show 0 ≤ l - k by omega)
          exact_mod_cast congrArg (fun z : Int => (z : ℚ)) this
        rw [this, abs_of_nonneg (by nlinarith)]; ring
      · have : (((l - k).toNat : Nat) : ℚ) = l - k := by
          have := Int.toNat_of_nonneg (show 0 ≤ l - k by omega)
          exact_mod_cast congrArg (fun z : Int => (z : ℚ)) this
        rw [this, if_pos (by nlinarith)]; ring
    · have hq : (l : ℚ) < k := by exact_mod_cast (show l < k by omega)
      have : (((k - l).toNat : Nat) : ℚ) = k - l := by
        have := Int.toNat_of_nonneg (show 0 ≤ k - l by omega)
        exact_mod_cast congrArg (fun z : Int => (z : ℚ)) this
      refine ⟨(k - l).toNat, ?_, ?_⟩
      · rw [this, abs_of_nonpos (by nlinarith)]; ring
      · rw [this, if_neg (by nlinarith)]; ring
  obtain ⟨n, h1, h2⟩ := key
  refine ⟨n, h1, h2, ?_⟩
  rw [h1, mul_div_assoc, div_self hs.ne', mul_one]
  unfold trunc
  rw [if_pos (by positivity)]
  simp

theorem onGrid_between {step lo hi a b : ℚ} (hs : 0 < step) (ha : OnGrid step lo hi a) (hb : OnGrid step lo hi b) {n : Nat}
    (hn : b = a + n * (if a ≤ b then step else -step)) (k : Nat) (hk : k ≤ n) :
    OnGrid step lo hi (a + k * (if a ≤ b then step else -step)) := by
  obtain ⟨⟨i, hi'⟩, h1, h2⟩ := ha
  obtain ⟨⟨j, hj⟩, h3, h4⟩ := hb
  have hkq : (k : ℚ) ≤ n := by exact_mod_cast hk
  have hk0 : (0 : ℚ) ≤ k := by positivity
  by_cases hab : a ≤ b
  · rw [if_pos hab] at hn ⊢
    have := mul_le_mul_of_nonneg_right hkq hs.le
    have := mul_nonneg hk0 hs.le
    refine ⟨⟨i + k, ?_⟩, by linarith, by linarith⟩
    rw [hi']; push_cast; ring
  · rw [if_neg hab] at hn ⊢
    have := mul_le_mul_of_nonneg_right hkq hs.le
    have := mul_nonneg hk0 hs.le
    refine ⟨⟨i - k, ?_⟩, by linarith, by linarith⟩
    rw [hi']; push_cast; ring

theorem quantLoop_spec (f : ℚ → ℚ) {step : ℚ} (hstep : 0 < step) (lo hi : ℚ) (size : Nat) (hs : 0 < size) (es : EventVector) :
    ∀ (log : Log) (v : ℚ) (d c : Int), 0 ≤ d → d ≤ (size : Int) - 1 → d ≤ c → (∀ e ∈ es, c < e.delay) → Sorted es →
      Written (OnGrid step lo hi) log d → OnGrid step lo hi v →
      (∀ e ∈ es, lo ≤ quantize step (f e.value) ∧ quantize step (f e.value) ≤ hi) →
      ∃ log' v' d', quantLoop f step size log v d es = some (log', v', d') ∧ 0 ≤ d' ∧ d' ≤ (size : Int) - 1 ∧
        Written (OnGrid step lo hi) log' d' ∧ OnGrid step lo hi v' ∧
        (es = [] → v' = v ∧ d' = d) ∧
        (∀ p z, es = p ++ [z] → z.delay ≤ (size : Int) - 1 → d' ≤ z.delay ∧ v' = quantize step (f z.value)) := by
  induction es with
  | nil =>
    intro log v d c h0 h1 _ _ _ hw hv _
    exact ⟨log, v, d, rfl, h0, h1, hw, hv, fun _ => ⟨rfl, rfl⟩, fun p z h => by simp at h⟩
  | cons e es ih =>
    intro log v d c h0 h1 hdc he hsd hw hv hb
    have hce := he e (by simp)
    obtain ⟨hs1, hs2⟩ := List.pairwise_cons.mp hsd
    have hnext : OnGrid step lo hi (quantize step (f e.value)) := ⟨quantize_grid _ _, hb e (by simp)⟩
    by_cases hd : d < (size : Int) - 1
    · generalize hm : min e.delay ((size : Int) - 1) = m
      have hmd : 0 < m - d := by omega
      obtain ⟨n, n1, n2, n3⟩ := grid_distance hstep hv.1 hnext.1
      generalize hq : quantize step (f e.value) = next at *
      have finish : ∀ (d' : Int) (log' : Log), 0 ≤ d' → d' ≤ m → Written (OnGrid step lo hi) log' d' →
          ∃ log'' v' d'', quantLoop f step size log' next d' es = some (log'', v', d'') ∧ 0 ≤ d'' ∧ d'' ≤ (size : Int) - 1 ∧
          Written (OnGrid step lo hi) log'' d'' ∧ OnGrid step lo hi v' ∧
          (∀ p z, e :: es = p ++ [z] → z.delay ≤ (size : Int) - 1 → d'' ≤ z.delay ∧ v' = quantize step (f z.value)) := by
        intro d' log' h0' hm' hw'
        obtain ⟨log'', v', d'', e1, e2, e3, e4, e5, e6, e7⟩ := ih log' next d' e.delay h0' (by omega) (by omega)
          (fun x hx => hs1 x hx) hs2 hw' hnext (fun x hx => hb x (by simp [hx]))
        refine ⟨log'', v', d'', e1, e2, e3, e4, e5, ?_⟩
        intro p z hz hzm
        cases p with
        | nil =>
          simp only [List.nil_append, List.cons.injEq] at hz
          obtain ⟨rfl, rfl⟩ := hz
          obtain ⟨rfl, rfl⟩ := e6 rfl
          exact ⟨by omega, hq.symm⟩
        | cons x p =>
          simp only [List.cons_append, List.cons.injEq] at hz
          exact e7 p z hz.2 hzm
      by_cases hdiff : |next - v| < step
      · have hw' := written_write (n := (m - d).toNat) hw h0 hv
        rw [show d + ((m - d).toNat : Int) = m by omega] at hw'
        obtain ⟨log'', v', d'', e1, e2, e3, e4, e5, e6⟩ := finish m _ (by omega) (le_refl _) hw'
        refine ⟨log'', v', d'', ?_, e2, e3, e4, e5, by simp, e6⟩
        unfold quantLoop
        rw [if_pos hd]
        simp only [hq, hm]
        rw [if_pos hdiff]
        unfold fill
        rw [subspan_ok h0 (by omega) (by omega)]
        simp only [Option.map_some]
        rw [show d + (m - d) = m by omega]
        exact e1
      · have hnn : n ≠ 0 := by
          rintro rfl
          rw [n1] at hdiff; simp at hdiff; linarith
        have hlen : 0 ≤ (m - d).tdiv (n : Int) := Int.tdiv_nonneg (by omega) (by omega)
        have hmul : (n : Int) * (m - d).tdiv (n : Int) ≤ m - d := by
          rw [Int.tdiv_eq_ediv_of_nonneg (by omega)]
          exact Int.mul_ediv_self_le (by omega)
        obtain ⟨log', g1, g2, g3⟩ := stepLoop_spec (P := OnGrid step lo hi) (size := size) hstep (next := next) hlen n log v d h0
          (by omega) hw (fun k hk => onGrid_between hstep hv hnext n2 k hk) n2
        obtain ⟨log'', v', d'', e1, e2, e3, e4, e5, e6⟩ := finish _ log' (by have := Int.mul_nonneg (show 0 ≤ (n : Int) by omega) hlen; omega)
          (show d + n * (m - d).tdiv (n : Int) ≤ m by omega) g2
        refine ⟨log'', v', d'', ?_, e2, e3, e4, e5, by simp, e6⟩
        unfold quantLoop
        rw [if_pos hd]
        simp only [hq, hm]
        rw [if_neg hdiff, n3, if_neg (by omega)]
        rw [show ((n : Int)).toNat = n by omega, g1]
        exact e1
    · refine ⟨log, v, d, ?_, h0, h1, hw, hv, by simp, ?_⟩
      · unfold quantLoop; rw [if_neg hd]
      · intro p z hz hzm
        have : z ∈ e :: es := by rw [hz]; simp
        have := he z this
        omega

/-- **C40, quantized.** With a positive step, for every history and block size: every frame of the block is written exactly once
and no other one, every value is a multiple of the step and stays between any bounds of the quantized event values, and from
the last event on (when it lies in the block) the value is its quantized value. -/
theorem quantized_envelope_partial (ops : List Midi.Op) (hop : ∀ op ∈ ops, 0 ≤ op.delay) (t : Midi.Target) (f : ℚ → ℚ) (size : Nat)
    (step lo hi : ℚ) (hstep : 0 < step)
    (hb : ∀ e ∈ Midi.vec (Midi.run ops) t, lo ≤ quantize step (f e.value) ∧ quantize step (f e.value) ≤ hi) :
    ∃ log, quantEnvelope f (Midi.vec (Midi.run ops) t) size step = some log ∧ (∀ i, size ≤ i → log i = []) ∧
      (∀ i, i < size → ∃ y, log i = [y] ∧ (∃ k : Int, y = k * step) ∧ lo ≤ y ∧ y ≤ hi) ∧
      ∀ (p : EventVector) (z : Event), Midi.vec (Midi.run ops) t = p ++ [z] → ∀ i : Nat, i < size → z.delay ≤ (i : Int) → log i = [quantize step (f z.value)] := by
  obtain ⟨hs, v, es, hv⟩ := Midi.starts_run ops hop t
  rw [hv] at hs hb ⊢
  by_cases h0 : size = 0
  · refine ⟨fun _ => [], ?_, fun _ _ => rfl, fun i hi => by omega, fun p z h i hi => by omega⟩
    unfold quantEnvelope; rw [if_neg hstep.ne']; simp [h0]
  · obtain ⟨h1, h2⟩ := List.pairwise_cons.mp hs
    obtain ⟨log', v', d', e1, e2, e3, e4, e5, e6, e7⟩ := quantLoop_spec f hstep lo hi size (by omega) es (fun _ => [])
      (quantize step (f v)) 0 0 (le_refl _) (by omega) (le_refl _) h1 h2
      ⟨fun i hi => by omega, fun _ _ => rfl⟩ ⟨quantize_grid _ _, hb ⟨0, v⟩ (by simp)⟩ (fun e he => hb e (by simp [he]))
    have hw := written_write (n := size - d'.toNat) e4 e2 e5
    refine ⟨write log' d'.toNat (size - d'.toNat) (fun _ => v'), ?_, ?_, ?_, ?_⟩
    · unfold quantEnvelope
      rw [if_neg hstep.ne']
      simp only
      rw [if_neg h0, e1]
      simp only [fillRest]
      rw [subspan_rest e2 (by omega)]
      rfl
    · intro i hi; exact hw.2 i (by omega)
    · intro i hi; exact hw.1 i (by omega)
    · intro p z hz i hi hzi
      have : d' ≤ z.delay ∧ v' = quantize step (f z.value) := by
        cases p with
        | nil =>
          simp only [List.nil_append, List.cons.injEq] at hz
          obtain ⟨rfl, rfl⟩ := hz
          obtain ⟨rfl, rfl⟩ := e6 rfl
          exact ⟨le_refl _, rfl⟩
        | cons x p =>
          simp only [List.cons_append, List.cons.injEq] at hz
          exact e7 p z hz.2 (by omega)
      unfold write
      rw [if_pos (by omega), e4.2 i (by omega), this.2]; rfl

example : (quantEnvelope (fun x => x) (Midi.vec (Midi.run [.cc 0 7 1, .cc 6 7 (10/3), .cc 9 7 0]) (.cc 7)) 12 1).map
    (fun l => (List.range 13).map l) = some [[1], [1], [1], [2], [2], [2], [3], [2], [1], [0], [0], [0], []] := by decide +kernel

/-- A quantized envelope does not always pass through the quantized value of an event at its frame: the steps of equal length may
end before the event, and the next change starts from there. -/
theorem quantized_through_events_violated :
    (quantEnvelope (fun x => x) (Midi.vec (Midi.run [.cc 0 7 0, .cc 10 7 3, .cc 11 7 5]) (.cc 7)) 16 1).map (fun l => l 10)
      = some [4] ∧
    (⟨10, 3⟩ : Event) ∈ Midi.vec (Midi.run [.cc 0 7 0, .cc 10 7 3, .cc 11 7 5]) (.cc 7) := by decide +kernel

end Verif.Envelope
