import Verif.Clients.Model
import Mathlib.Tactic.IntervalCases
import Mathlib.Tactic.Linarith
import Mathlib.Tactic.Ring
import Mathlib.Tactic.FieldSimp
import Mathlib.Tactic.NormNum

/-! # The JACK client and the renderer of MIDI files (C136, C137) -/
namespace Verif.Clients

/-! ## Specification: MIDI messages -/

/-- The messages of MIDI 1.0 with a channel. -/
inductive Message
  | noteOff (ch key velocity : Nat)
  | noteOn (ch key velocity : Nat)
  | polyPressure (ch key value : Nat)
  | control (ch number value : Nat)
  | program (ch number : Nat)
  | pressure (ch value : Nat)
  | bend (ch value : Nat)
deriving DecidableEq, Repr

/-- The limits of the standard. -/
def Message.Valid : Message → Prop
  | .noteOff ch k v | .noteOn ch k v | .polyPressure ch k v | .control ch k v => ch < 16 ∧ k < 128 ∧ v < 128
  | .program ch n | .pressure ch n => ch < 16 ∧ n < 128
  | .bend ch v => ch < 16 ∧ v < 16384

/-- The bytes of a message on the wire. -/
def Message.bytes : Message → List Nat
  | .noteOff ch k v => [0x80 + ch, k, v]
  | .noteOn ch k v => [0x90 + ch, k, v]
  | .polyPressure ch k v => [0xA0 + ch, k, v]
  | .control ch n v => [0xB0 + ch, n, v]
  | .program ch n => [0xC0 + ch, n]
  | .pressure ch v => [0xD0 + ch, v]
  | .bend ch v => [0xE0 + ch, v % 128, v / 128]

/-- What a message asks of the synthesizer: a note with velocity 0 ends a note; the wheel rests at 8192; programs do not exist. -/
def Message.meaning (time : Nat) : Message → List Call
  | .noteOff _ k v => [.noteOff time k v]
  | .noteOn _ k v => if v = 0 then [.noteOff time k 0] else [.noteOn time k v]
  | .polyPressure _ k v => [.polyAftertouch time k v]
  | .control _ n v => [.cc time n v]
  | .program _ _ => []
  | .pressure _ v => [.channelAftertouch time v]
  | .bend _ v => [.pitchWheel time ((v : Int) - 8192)]

/-- Messages about pressure. -/
def Message.isPressure : Message → Bool
  | .polyPressure .. => true
  | .pressure .. => true
  | _ => false

/-! ## Messages -/

theorem status_of {base ch : Nat} (h : ch < 16) (hb : base ∈ [0x80, 0x90, 0xA0, 0xB0, 0xC0, 0xD0, 0xE0, 0xF0]) :
    status (base + ch) = base := by
  simp only [List.mem_cons, List.not_mem_nil, or_false] at hb
  unfold status
  rcases hb with rfl | rfl | rfl | rfl | rfl | rfl | rfl | rfl <;> interval_cases ch <;> rfl

theorem pitch_of (v : Nat) : buildAndCenterPitch (v % 128) (v / 128) = (v : Int) - 8192 := by
  unfold buildAndCenterPitch
  rw [Nat.shiftLeft_eq]
  have : v / 128 * 2 ^ 7 + v % 128 = v := by omega
  rw [this]

/-- The JACK client makes of every message of the standard the call it stands for, on all channels. -/
theorem jack_message (time : Nat) {m : Message} (h : m.Valid) : jackEvent time m.bytes = some (m.meaning time) := by
  cases m <;> simp only [Message.Valid] at h <;> simp only [jackEvent, Message.bytes, Message.meaning] <;>
    simp [status_of h.1, pitch_of]
  case noteOn ch k v => by_cases hv : v = 0 <;> simp [hv]

/-- So does the renderer, but for the pressure of keys and of the channel. -/
theorem render_message_partial (delay : Nat) {m : Message} (h : m.Valid) (hp : m.isPressure = false) :
    renderEvent delay m.bytes = some (m.meaning delay) := by
  cases m <;> simp only [Message.Valid] at h <;> simp only [Message.isPressure, Bool.true_eq_false] at hp <;>
    simp only [renderEvent, Message.bytes, Message.meaning] <;> simp [status_of h.1, pitch_of]
  case noteOn ch k v => by_cases hv : v = 0 <;> simp [hv]

/-- The pressures of a MIDI file are ignored by the renderer, though the synthesizer would follow them. -/
theorem render_pressure_violated : ∃ m : Message, m.Valid ∧ m.meaning 0 ≠ [] ∧ renderEvent 0 m.bytes = some [] :=
  ⟨.pressure 0 100, by simp [Message.Valid], by simp [Message.meaning], by decide⟩

/-- An event with too few bytes makes the JACK client read outside of it. -/
theorem jack_short_violated : ∃ ev : List Nat, ev ≠ [] ∧ jackEvent 0 ev = none := ⟨[0x90, 60], by simp, by decide⟩

/-! ## The JACK client -/

/-- What should happen in a cycle. -/
def expected (c : Nat × List (Nat × Message)) : List Action :=
  (c.2.flatMap fun e => (e.2.meaning e.1).map Action.call) ++ [.block c.1]

/-- A cycle as it arrives. -/
def Cycle.of (c : Nat × List (Nat × Message)) (locked : Bool) : Cycle :=
  ⟨c.1, c.2.map fun e => (e.1, e.2.bytes), locked⟩

theorem jackEvents_of (es : List (Nat × Message)) (h : ∀ e ∈ es, e.2.Valid) :
    jackEvents (es.map fun e => (e.1, e.2.bytes)) = some (es.flatMap fun e => (e.2.meaning e.1).map Action.call) := by
  induction es with
  | nil => rfl
  | cons e es ih =>
    simp only [List.map_cons, jackEvents, jack_message e.1 (h e (by simp)), ih fun x hx => h x (by simp [hx])]
    rfl

/-- While no other thread holds the lock, each cycle gives the synthesizer all its messages, in order and with their times, and
then plays a block of the length of the cycle. -/
theorem jack_cycles_partial (cs : List (Nat × List (Nat × Message))) (h : ∀ c ∈ cs, ∀ e ∈ c.2, e.2.Valid) :
    jackRun (cs.map fun c => Cycle.of c false) = some (cs.flatMap expected) := by
  induction cs with
  | nil => rfl
  | cons c cs ih =>
    have hc := jackEvents_of c.2 (h c (by simp))
    simp only [List.map_cons, jackRun, process, Cycle.of, Bool.false_eq_true, if_false, hc]
    rw [show (fun c : Nat × List (Nat × Message) => (⟨c.1, c.2.map fun e => (e.1, e.2.bytes), false⟩ : Cycle)) =
      fun c => Cycle.of c false from rfl, ih fun x hx => h x (by simp [hx])]
    rfl

/-- The frames an action puts out. -/
def Action.frames : Action → Nat
  | .call _ => 0
  | .block n => n
  | .silence n => n

/-- In every run each frame of each cycle is written, whoever holds the lock. -/
theorem jack_output (cs : List ((Nat × List (Nat × Message)) × Bool)) (h : ∀ c ∈ cs, ∀ e ∈ c.1.2, e.2.Valid) :
    ∃ as, jackRun (cs.map fun c => Cycle.of c.1 c.2) = some as ∧
      (as.map Action.frames).sum = (cs.map fun c => c.1.1).sum := by
  induction cs with
  | nil => exact ⟨[], rfl, rfl⟩
  | cons c cs ih =>
    obtain ⟨as, e, hs⟩ := ih fun x hx => h x (by simp [hx])
    obtain ⟨⟨n, es⟩, l⟩ := c
    have hc := jackEvents_of es (h ((n, es), l) (by simp))
    cases l with
    | true =>
      refine ⟨.silence n :: as, ?_, by simp [Action.frames, hs]⟩
      simp only [List.map_cons, jackRun, process, Cycle.of, if_true]
      rw [show (fun c : (Nat × List (Nat × Message)) × Bool => (⟨c.1.1, c.1.2.map fun e => (e.1, e.2.bytes), c.2⟩ : Cycle)) =
        fun c => Cycle.of c.1 c.2 from rfl, e]
      rfl
    | false =>
      refine ⟨expected (n, es) ++ as, ?_, ?_⟩
      · simp only [List.map_cons, jackRun, process, Cycle.of, Bool.false_eq_true, if_false, hc]
        rw [show (fun c : (Nat × List (Nat × Message)) × Bool => (⟨c.1.1, c.1.2.map fun e => (e.1, e.2.bytes), c.2⟩ : Cycle)) =
          fun c => Cycle.of c.1 c.2 from rfl, e]
        rfl
      · have z : ∀ es : List (Nat × Message),
            ((es.flatMap fun e => (e.2.meaning e.1).map Action.call).map Action.frames).sum = 0 := by
          intro es
          apply List.sum_eq_zero
          intro x hx
          simp only [List.mem_map, List.mem_flatMap] at hx
          obtain ⟨a, ⟨_, _, _, _, rfl⟩, rfl⟩ := hx
          rfl
        simp only [expected, List.map_append, List.sum_append, z, hs, List.map_cons, List.sum_cons]
        simp [Action.frames]

/-- When the lock is held, the messages of the cycle are lost: the end of a note never reaches the synthesizer. -/
theorem jack_locked_violated : ∃ cs : List Cycle, (∃ c ∈ cs, (0, (Message.noteOff 0 60 64).bytes) ∈ c.events) ∧
    jackRun cs = some [.call (.noteOn 0 60 100), .block 256, .silence 256, .block 256] :=
  ⟨[⟨256, [(0, [0x90, 60, 100])], false⟩, ⟨256, [(0, [0x80, 60, 64])], true⟩, ⟨256, [], false⟩],
    ⟨_, List.mem_cons_of_mem _ (List.mem_cons_self ..), by simp [Message.bytes]⟩, by decide⟩

/-! ## The renderer -/

/-- The frame at which a time falls. -/
def frameOf (rate : Nat) (t : ℚ) : Nat := ⌊t * rate⌋₊

/-- Calls for an event of the kinds the renderer knows. -/
def callsOf (delay : Nat) : Event → List Call
  | .message b => (renderEvent delay b).getD []
  | _ => []

/-- Every message of the track can be read. -/
def Readable (track : List (ℚ × Event)) : Prop := ∀ e ∈ track, ∀ b, e.2 = .message b → ∀ d, (renderEvent d b).isSome

theorem sequence_eq (track : List (ℚ × Event)) : ∀ now, sequence now track =
    (track.takeWhile fun e => e.2 ≠ .endOfTrack).mapIdx fun i e =>
      (now + (((track.takeWhile fun e => e.2 ≠ .endOfTrack).take (i + 1)).map Prod.fst).sum, e.2) := by
  induction track with
  | nil => intro now; rfl
  | cons e track ih =>
    intro now
    obtain ⟨d, ev⟩ := e
    simp only [sequence]
    by_cases h : ev = .endOfTrack
    · simp [h]
    · rw [if_neg h, ih]
      simp [h, List.mapIdx_cons, add_assoc]

theorem sequence_sorted (track : List (ℚ × Event)) (h : ∀ e ∈ track, 0 ≤ e.1) :
    ∀ now, (∀ e ∈ sequence now track, now ≤ e.1) ∧ (sequence now track).Pairwise fun a b => a.1 ≤ b.1 := by
  induction track with
  | nil => intro now; simp [sequence]
  | cons e track ih =>
    intro now
    obtain ⟨d, ev⟩ := e
    have hd : 0 ≤ d := h (d, ev) (by simp)
    simp only [sequence]
    split
    · simp
    · obtain ⟨i1, i2⟩ := ih (fun x hx => h x (by simp [hx])) (now + d)
      constructor
      · intro x hx
        rcases List.mem_cons.mp hx with rfl | hx
        · show now ≤ now + d
          linarith
        · have := i1 x hx
          linarith
      · exact List.pairwise_cons.mpr ⟨fun x hx => i1 x hx, i2⟩

theorem callback_of {e : ℚ × Event} (h : ∀ b, e.2 = .message b → ∀ d, (renderEvent d b).isSome) (delay : Nat) :
    midiCallback delay e.2 = some (callsOf delay e.2) := by
  obtain ⟨t, ev⟩ := e
  cases ev with
  | message b =>
    obtain ⟨c, hc⟩ := Option.isSome_iff_exists.mp (h b rfl delay)
    simp [midiCallback, callsOf, hc]
  | _ => rfl

/-- An event is due after `n` ticks exactly if its frame is before `n`. -/
theorem due_iff {rate : Nat} (hr : 0 < rate) {t : ℚ} (ht : 0 ≤ t) (n : Nat) :
    (n : ℚ) * (1 / rate) > t ↔ frameOf rate t < n := by
  have hr' : (0 : ℚ) < rate := by exact_mod_cast hr
  unfold frameOf
  rw [Nat.floor_lt (by positivity), mul_one_div, gt_iff_lt, lt_div_iff₀ hr']

theorem dispatch_of {rate : Nat} (hr : 0 < rate) (n delay : Nat) (es : List (ℚ × Event)) (hs : es.Pairwise fun a b => a.1 ≤ b.1)
    (h0 : ∀ e ∈ es, 0 ≤ e.1) (hd : Readable es) :
    dispatch ((n : ℚ) * (1 / rate)) delay es =
      some ((es.filter fun e => frameOf rate e.1 < n).flatMap fun e => callsOf delay e.2,
        es.filter fun e => ¬ frameOf rate e.1 < n) := by
  induction es with
  | nil => rfl
  | cons e es ih =>
    have hp := List.pairwise_cons.mp hs
    simp only [dispatch]
    by_cases h : frameOf rate e.1 < n
    · rw [if_pos ((due_iff hr (h0 e (by simp)) n).mpr h), callback_of (hd e (by simp)),
        ih hp.2 (fun x hx => h0 x (by simp [hx])) (fun x hx => hd x (by simp [hx]))]
      simp [h]
    · rw [if_neg (fun hc => h ((due_iff hr (h0 e (by simp)) n).mp hc))]
      have late : ∀ x ∈ e :: es, ¬ frameOf rate x.1 < n := by
        intro x hx
        rcases List.mem_cons.mp hx with rfl | hx
        · exact h
        · have : frameOf rate e.1 ≤ frameOf rate x.1 :=
            Nat.floor_le_floor (mul_le_mul_of_nonneg_right (hp.1 x hx) (by positivity))
          omega
      have a : (e :: es).filter (fun x => decide (frameOf rate x.1 < n)) = [] :=
        List.filter_eq_nil_iff.mpr fun x hx => by simpa using late x hx
      have b : (e :: es).filter (fun x => decide (¬ frameOf rate x.1 < n)) = e :: es :=
        List.filter_eq_self.mpr fun x hx => by simpa using late x hx
      rw [a, b]
      rfl

/-- The events from frame `n` on. -/
def from_ (rate n : Nat) (es : List (ℚ × Event)) : List (ℚ × Event) := es.filter fun e => n ≤ frameOf rate e.1

/-- The calls due in the frames `n ≤ f < m` of a block that begins at frame `start`. -/
def between (rate start n m : Nat) (es : List (ℚ × Event)) : List Call :=
  (es.filter fun e => n ≤ frameOf rate e.1 ∧ frameOf rate e.1 < m).flatMap fun e => callsOf (frameOf rate e.1 - start) e.2

/-- A track that can be played. -/
structure Good (es : List (ℚ × Event)) : Prop where
  sorted : es.Pairwise fun a b => a.1 ≤ b.1
  nonneg : ∀ e ∈ es, 0 ≤ e.1
  readable : Readable es

theorem tick_of {rate : Nat} (hr : 0 < rate) {es : List (ℚ × Event)} (g : Good es) (start n : Nat) :
    tick (1 / rate) (n - start) ⟨n * (1 / rate), from_ rate n es⟩ =
      some (between rate start n (n + 1) es, ⟨(n + 1 : Nat) * (1 / rate), from_ rate (n + 1) es⟩, (from_ rate (n + 1) es).isEmpty) := by
  have e1 : ((n : ℚ) * (1 / rate) + 1 / rate) = ((n + 1 : Nat) : ℚ) * (1 / rate) := by push_cast; ring
  have sub : ∀ x ∈ from_ rate n es, x ∈ es := fun x hx => List.mem_of_mem_filter hx
  have sorted : (from_ rate n es).Pairwise fun a b => a.1 ≤ b.1 := g.sorted.filter _
  simp only [tick, e1]
  rw [dispatch_of hr (n + 1) _ _ sorted (fun x hx => g.nonneg x (sub x hx)) (fun x hx => g.readable x (sub x hx))]
  have a : (from_ rate n es).filter (fun e => ¬ frameOf rate e.1 < n + 1) = from_ rate (n + 1) es := by
    unfold from_
    rw [List.filter_filter]
    apply List.filter_congr
    intro x _
    rw [Bool.eq_iff_iff]
    simp
    omega
  have b : ((from_ rate n es).filter fun e => frameOf rate e.1 < n + 1).flatMap (fun e => callsOf (n - start) e.2) =
      between rate start n (n + 1) es := by
    unfold from_ between
    rw [List.filter_filter]
    have : (fun e : ℚ × Event => decide (frameOf rate e.1 < n + 1) && decide (n ≤ frameOf rate e.1)) =
        fun e => decide (n ≤ frameOf rate e.1 ∧ frameOf rate e.1 < n + 1) := by
      funext e; rw [Bool.and_comm]; simp
    rw [this, List.flatMap_def, List.flatMap_def]
    congr 1
    apply List.map_congr_left
    intro x hx
    have := (List.mem_filter.mp hx).2
    simp only [decide_eq_true_eq] at this
    rw [show frameOf rate x.1 = n by omega]
  rw [a, b]
  rfl

theorem filter_split {es : List (ℚ × Event)} (rate : Nat) (hs : es.Pairwise fun a b => a.1 ≤ b.1) {n m l : Nat} (h1 : n ≤ m)
    (h2 : m ≤ l) :
    (es.filter fun e => decide (n ≤ frameOf rate e.1 ∧ frameOf rate e.1 < l)) =
      (es.filter fun e => decide (n ≤ frameOf rate e.1 ∧ frameOf rate e.1 < m)) ++
        es.filter fun e => decide (m ≤ frameOf rate e.1 ∧ frameOf rate e.1 < l) := by
  induction es with
  | nil => rfl
  | cons e es ih =>
    have hp := List.pairwise_cons.mp hs
    have i := ih hp.2
    by_cases h : frameOf rate e.1 < m
    · simp only [List.filter_cons, i, decide_eq_true_eq]
      rw [if_neg (by omega : ¬ (m ≤ frameOf rate e.1 ∧ frameOf rate e.1 < l))]
      by_cases hn : n ≤ frameOf rate e.1
      · rw [if_pos ⟨hn, by omega⟩, if_pos ⟨hn, h⟩]; rfl
      · rw [if_neg (by omega), if_neg (by omega)]
    · have late : ∀ x ∈ e :: es, m ≤ frameOf rate x.1 := by
        intro x hx
        rcases List.mem_cons.mp hx with rfl | hx
        · omega
        · have : frameOf rate e.1 ≤ frameOf rate x.1 :=
            Nat.floor_le_floor (mul_le_mul_of_nonneg_right (hp.1 x hx) (by positivity))
          omega
      have nil : ((e :: es).filter fun e => decide (n ≤ frameOf rate e.1 ∧ frameOf rate e.1 < m)) = [] :=
        List.filter_eq_nil_iff.mpr fun x hx => by
          have := late x hx
          simp only [decide_eq_true_eq]
          omega
      rw [nil, List.nil_append]
      apply List.filter_congr
      intro x hx
      have := late x hx
      rw [decide_eq_decide]
      omega

theorem between_split {es : List (ℚ × Event)} (rate start : Nat) (hs : es.Pairwise fun a b => a.1 ≤ b.1) {n m l : Nat} (h1 : n ≤ m)
    (h2 : m ≤ l) : between rate start n l es = between rate start n m es ++ between rate start m l es := by
  unfold between
  rw [filter_split rate hs h1 h2, List.flatMap_append]

theorem from_nil_mono {rate n m : Nat} {es : List (ℚ × Event)} (h : n ≤ m) (hn : from_ rate n es = []) :
    from_ rate m es = [] ∧ ∀ start l, between rate start n l es = [] := by
  unfold from_ at hn
  rw [List.filter_eq_nil_iff] at hn
  constructor
  · unfold from_
    rw [List.filter_eq_nil_iff]
    intro x hx
    have := hn x hx
    simp only [decide_eq_true_eq] at this ⊢
    omega
  · intro start l
    unfold between
    rw [List.filter_eq_nil_iff.mpr]
    · rfl
    · intro x hx
      have := hn x hx
      simp only [decide_eq_true_eq] at this ⊢
      omega

theorem ticks_of {rate : Nat} (hr : 0 < rate) {es : List (ℚ × Event)} (g : Good es) (start k : Nat) : ∀ n, start ≤ n →
    ∃ p, ticks (1 / rate) k (n - start) ⟨n * (1 / rate), from_ rate n es⟩ =
        some (between rate start n (n + k) es, p, decide (0 < k) && (from_ rate (n + k) es).isEmpty) ∧
      ((decide (0 < k) && (from_ rate (n + k) es).isEmpty) = false →
        p = ⟨(n + k : Nat) * (1 / rate), from_ rate (n + k) es⟩) := by
  induction k with
  | zero =>
    intro n _
    refine ⟨_, ?_, fun _ => rfl⟩
    have : between rate start n n es = [] := by
      unfold between
      rw [List.filter_eq_nil_iff.mpr]
      · rfl
      · intro x _
        simp only [decide_eq_true_eq]
        omega
    simp [ticks, this]
  | succ k ih =>
    intro n hn
    have e := tick_of hr g start n
    obtain ⟨p, h1, h2⟩ := ih (n + 1) (by omega)
    rw [show n + 1 - start = n - start + 1 by omega] at h1
    have split := between_split rate start g.sorted (n := n) (m := n + 1) (l := n + (k + 1)) (by omega) (by omega)
    simp only [ticks]
    rw [e]
    simp only [Option.bind_eq_bind, Option.bind_some]
    by_cases hf : from_ rate (n + 1) es = []
    · obtain ⟨f1, f2⟩ := from_nil_mono (m := n + (k + 1)) (by omega) hf
      refine ⟨⟨(n + 1 : Nat) * (1 / rate), from_ rate (n + 1) es⟩, ?_, ?_⟩
      · rw [split, f2, List.append_nil, f1]
        simp [hf]
      · rw [f1]; simp
    · have hf' : (from_ rate (n + 1) es).isEmpty = false := by simpa using hf
      refine ⟨p, ?_, ?_⟩
      · rw [hf', h1]
        simp only [Bool.false_eq_true, if_false, Option.bind_some]
        rw [split, show n + (k + 1) = n + 1 + k by omega]
        rcases Nat.eq_zero_or_pos k with rfl | hk
        · simp [hf]
        · simp [hk]
      · intro hd
        rw [show n + (k + 1) = n + 1 + k by omega] at hd ⊢
        apply h2
        simp only [Nat.succ_pos, decide_true, Bool.true_and] at hd
        rw [hd, Bool.and_false]

/-- The frame of the last event. -/
def lastFrame (rate : Nat) (es : List (ℚ × Event)) : Nat := (es.map fun e => frameOf rate e.1).foldr max 0

theorem le_foldr {l : List Nat} {x : Nat} (h : x ∈ l) : x ≤ l.foldr max 0 := by
  induction l with
  | nil => simp at h
  | cons y l ih =>
    rcases List.mem_cons.mp h with rfl | h
    · exact le_max_left _ _
    · exact (ih h).trans (le_max_right _ _)

theorem foldr_mem (l : List Nat) : l.foldr max 0 = 0 ∨ l.foldr max 0 ∈ l := by
  induction l with
  | nil => left; rfl
  | cons y l ih =>
    simp only [List.foldr_cons]
    rcases le_total y (l.foldr max 0) with h | h
    · rw [max_eq_right h]
      rcases ih with i | i
      · left; exact i
      · right; exact List.mem_cons_of_mem _ i
    · rw [max_eq_left h]; right; exact List.mem_cons_self ..

theorem from_nil_iff (rate n : Nat) (es : List (ℚ × Event)) (hn : 0 < n) : from_ rate n es = [] ↔ lastFrame rate es < n := by
  unfold from_ lastFrame
  rw [List.filter_eq_nil_iff]
  constructor
  · intro h
    rcases foldr_mem (es.map fun e => frameOf rate e.1) with z | z
    · omega
    · obtain ⟨x, hx, e⟩ := List.mem_map.mp z
      have := h x hx
      simp only [decide_eq_true_eq] at this
      omega
  · intro h x hx
    have := le_foldr (List.mem_map.mpr ⟨x, hx, rfl⟩ : frameOf rate x.1 ∈ es.map fun e => frameOf rate e.1)
    simp only [decide_eq_true_eq]
    omega

theorem blocks_of {rate : Nat} (hr : 0 < rate) {es : List (ℚ × Event)} (g : Good es) {bs : Nat} (hb : 0 < bs) (r : Nat) :
    ∀ b fuel, b + r = lastFrame rate es / bs → r < fuel →
      blocks (1 / rate) bs fuel ⟨(b * bs : Nat) * (1 / rate), from_ rate (b * bs) es⟩ =
        some ((List.range' b (r + 1)).map fun b => between rate (b * bs) (b * bs) (b * bs + bs) es, true) := by
  induction r with
  | zero =>
    intro b fuel hl hf
    obtain ⟨fuel, rfl⟩ : ∃ k, fuel = k + 1 := ⟨fuel - 1, by omega⟩
    obtain ⟨p, h1, -⟩ := ticks_of hr g (b * bs) bs (b * bs) le_rfl
    rw [Nat.sub_self] at h1
    have : from_ rate (b * bs + bs) es = [] := by
      rw [from_nil_iff _ _ _ (by omega)]
      have := Nat.lt_div_mul_add (a := lastFrame rate es) hb
      rw [← hl] at this
      simpa using this
    simp only [blocks]
    rw [h1, this]
    simp [hb]
  | succ r ih =>
    intro b fuel hl hf
    obtain ⟨fuel, rfl⟩ : ∃ k, fuel = k + 1 := ⟨fuel - 1, by omega⟩
    obtain ⟨p, h1, h2⟩ := ticks_of hr g (b * bs) bs (b * bs) le_rfl
    rw [Nat.sub_self] at h1
    have ne : from_ rate (b * bs + bs) es ≠ [] := by
      rw [Ne, from_nil_iff _ _ _ (by omega)]
      have h := Nat.div_mul_le_self (lastFrame rate es) bs
      rw [← hl] at h
      have : (b + 1) * bs ≤ (b + (r + 1)) * bs := Nat.mul_le_mul_right _ (by omega)
      rw [Nat.add_mul, Nat.one_mul] at this
      omega
    have ne' : (from_ rate (b * bs + bs) es).isEmpty = false := by simpa using ne
    have hp := h2 (by rw [ne', Bool.and_false])
    have i := ih (b + 1) fuel (by omega) (by omega)
    rw [Nat.add_mul, Nat.one_mul] at i
    simp only [blocks]
    rw [h1, ne', hp]
    simp only [Bool.and_false, Option.bind_eq_bind, Option.bind_some, Bool.false_eq_true, if_false]
    rw [i]
    simp only [Option.bind_some]
    rw [List.range'_succ (n := r + 1)]
    rfl

/-! ### Specification of the renderer -/

/-- A track: messages and other events (`none`), each after a delay in seconds, and the delay of its end. -/
def trackOf (items : List (ℚ × Option Message)) (last : ℚ) : List (ℚ × Event) :=
  items.map (fun i => (i.1, match i.2 with | some m => .message m.bytes | none => .other)) ++ [(last, .endOfTrack)]

/-- Each event with its time: the sum of the delays up to it. -/
def clock (items : List (ℚ × Option Message)) : List (ℚ × Option Message) :=
  items.mapIdx fun i e => (((items.take (i + 1)).map Prod.fst).sum, e.2)

/-- What an event asks for. -/
def meaningOf (delay : Nat) : Option Message → List Call
  | some m => m.meaning delay
  | none => []

/-- The calls before block `b`: the events whose frame lies in it, in order, each with its place in the block. -/
def blockCalls (rate bs : Nat) (items : List (ℚ × Option Message)) (b : Nat) : List Call :=
  ((clock items).filter fun e => frameOf rate e.1 / bs = b).flatMap fun e => meaningOf (frameOf rate e.1 % bs) e.2

/-- The number of blocks up to the last event. -/
def blockCount (rate bs : Nat) (items : List (ℚ × Option Message)) : Nat :=
  ((clock items).map fun e => frameOf rate e.1).foldr max 0 / bs + 1

def toEvent : Option Message → Event
  | some m => .message m.bytes
  | none => .other

theorem sequence_track (items : List (ℚ × Option Message)) (last : ℚ) :
    sequence 0 (trackOf items last) = (clock items).map fun e => (e.1, toEvent e.2) := by
  have e : (trackOf items last).takeWhile (fun e => e.2 ≠ .endOfTrack) = items.map fun i => (i.1, toEvent i.2) := by
    unfold trackOf
    have f : (fun i : ℚ × Option Message => (i.1, match i.2 with | some m => Event.message m.bytes | none => Event.other)) =
        fun i => (i.1, toEvent i.2) := by
      funext i; obtain ⟨t, o⟩ := i; cases o <;> rfl
    rw [f, List.takeWhile_append_of_pos]
    · simp
    · intro x hx
      obtain ⟨y, -, rfl⟩ := List.mem_map.mp hx
      obtain ⟨t, o⟩ := y
      cases o <;> simp [toEvent]
  rw [sequence_eq, e]
  unfold clock
  refine List.ext_getElem (by simp) fun i h1 h2 => ?_
  simp [← List.map_take]
  rfl

/-- The renderer gives the synthesizer every message of the track exactly once, in order, before the block its time falls into and
with the delay of its frame inside that block; and it ends with the block of the last event. All block sizes and rates. -/
theorem render_track_partial {rate bs : Nat} (hr : 0 < rate) (hb : 0 < bs) {items : List (ℚ × Option Message)} (last : ℚ)
    (hd : ∀ e ∈ items, 0 ≤ e.1) (hv : ∀ e ∈ items, ∀ m, e.2 = some m → m.Valid ∧ m.isPressure = false)
    {fuel : Nat} (hf : blockCount rate bs items ≤ fuel) :
    renderTrack rate bs fuel (trackOf items last) =
      some ((List.range (blockCount rate bs items)).map (blockCalls rate bs items), true) := by
  have seq := sequence_track items last
  have delays : ∀ e ∈ trackOf items 0, 0 ≤ e.1 := by
    intro e he
    simp only [trackOf, List.mem_append, List.mem_map, List.mem_singleton] at he
    rcases he with ⟨x, hx, rfl⟩ | rfl
    · exact hd x hx
    · exact le_rfl
  have same : sequence 0 (trackOf items 0) = sequence 0 (trackOf items last) := by
    rw [sequence_track, sequence_track]
  obtain ⟨s1, s2⟩ := sequence_sorted (trackOf items 0) delays 0
  rw [same, seq] at s1 s2
  have valid : ∀ e ∈ clock items, ∀ m, e.2 = some m → m.Valid ∧ m.isPressure = false := by
    intro e he m hm
    obtain ⟨i, hi, rfl⟩ := List.mem_iff_getElem.mp he
    simp only [clock, List.getElem_mapIdx] at hm
    exact hv _ (List.getElem_mem _) m hm
  have calls : ∀ e ∈ clock items, ∀ d, callsOf d (toEvent e.2) = meaningOf d e.2 := by
    intro e he d
    cases h : e.2 with
    | none => rfl
    | some m =>
      obtain ⟨v1, v2⟩ := valid e he m h
      simp [toEvent, callsOf, meaningOf, render_message_partial d v1 v2]
  have g : Good ((clock items).map fun e => (e.1, toEvent e.2)) := by
    refine ⟨s2, s1, ?_⟩
    intro e he b hb' d
    obtain ⟨x, hx, rfl⟩ := List.mem_map.mp he
    cases h : x.2 with
    | none => simp [h, toEvent] at hb'
    | some m =>
      obtain ⟨v1, v2⟩ := valid x hx m h
      simp only [h, toEvent, Event.message.injEq] at hb'
      rw [← hb', render_message_partial d v1 v2]
      rfl
  have lf : lastFrame rate ((clock items).map fun e => (e.1, toEvent e.2)) =
      ((clock items).map fun e => frameOf rate e.1).foldr max 0 := by
    simp [lastFrame, Function.comp_def]
  have bc : blockCount rate bs items - 1 + 1 = blockCount rate bs items := Nat.sub_add_cancel (by unfold blockCount; exact Nat.le_add_left _ _)
  have h := blocks_of hr g hb (blockCount rate bs items - 1) 0 fuel (by rw [lf, blockCount, Nat.zero_add, Nat.add_sub_cancel]) (by omega)
  have whole : from_ rate (0 * bs) ((clock items).map fun e => (e.1, toEvent e.2)) = (clock items).map fun e => (e.1, toEvent e.2) := by
    simp [from_]
  rw [whole, Nat.zero_mul, Nat.cast_zero, zero_mul] at h
  unfold renderTrack
  rw [seq, h, bc, List.range_eq_range']
  congr 2
  apply List.map_congr_left
  intro b _
  unfold between blockCalls
  rw [List.filter_map, List.flatMap_map]
  have : ((fun e : ℚ × Event => decide (b * bs ≤ frameOf rate e.1 ∧ frameOf rate e.1 < b * bs + bs)) ∘
      fun e : ℚ × Option Message => (e.1, toEvent e.2)) = fun e => decide (frameOf rate e.1 / bs = b) := by
    funext e
    simp only [Function.comp]
    rw [decide_eq_decide, Nat.div_eq_iff hb]
    omega
  rw [this, List.flatMap_def, List.flatMap_def]
  congr 1
  apply List.map_congr_left
  intro e he
  obtain ⟨he1, he2⟩ := List.mem_filter.mp he
  simp only [decide_eq_true_eq] at he2
  rw [calls e he1, ← he2]
  have := Nat.div_add_mod (frameOf rate e.1) bs
  rw [Nat.mul_comm] at this
  rw [show frameOf rate e.1 - frameOf rate e.1 / bs * bs = frameOf rate e.1 % bs by omega]

/-- With `--use-eot` the sound should last up to the end of the track, but it ends with the block of the last event before:
here after one block of 1024 frames instead of ten seconds. -/
theorem eot_violated : (48000 : Nat) * 10 > 1024 ∧ renderTrack 48000 1024 1000 (trackOf [] 10) = some ([[]], true) := by
  refine ⟨by norm_num, ?_⟩
  have := render_track_partial (rate := 48000) (bs := 1024) (by norm_num) (by norm_num) (items := []) 10 (by simp) (by simp)
    (fuel := 1000) (by simp [blockCount, clock])
  rw [this]
  simp [blockCount, blockCalls, clock]

/-- With blocks of no frames the renderer never ends, whatever the track. -/
theorem zero_block_violated (rate : Nat) (track : List (ℚ × Event)) (fuel : Nat) :
    ∃ calls, renderTrack rate 0 fuel track = some (calls, false) := by
  unfold renderTrack
  generalize (⟨0, sequence 0 track⟩ : Player) = p
  induction fuel with
  | zero => exact ⟨[], rfl⟩
  | succ fuel ih =>
    obtain ⟨c, h⟩ := ih
    exact ⟨[] :: c, by simp only [blocks, ticks, Option.bind_eq_bind, Option.bind_some, Bool.false_eq_true, if_false, h]; rfl⟩

/-- After the last event blocks follow until the first one that is silent, and no more. -/
theorem tail_blocks (power : Nat → ℚ) (k n : Nat) :
    (∃ fuel, tail power fuel k = (n, true)) ↔ power (k + n) ≤ 1 / 10 ^ 12 ∧ ∀ j < n, 1 / 10 ^ 12 < power (k + j) := by
  induction n generalizing k with
  | zero =>
    constructor
    · rintro ⟨fuel, h⟩
      cases fuel with
      | zero => simp [tail] at h
      | succ fuel =>
        simp only [tail] at h
        split at h
        · simp at h
        · rename_i hp
          exact ⟨not_lt.mp hp, by simp⟩
    · rintro ⟨h, -⟩
      exact ⟨1, by simp only [tail]; exact if_neg (not_lt.mpr h)⟩
  | succ n ih =>
    constructor
    · rintro ⟨fuel, h⟩
      cases fuel with
      | zero => simp [tail] at h
      | succ fuel =>
        simp only [tail] at h
        split at h
        · rename_i hp
          simp only [Prod.mk.injEq, Nat.add_right_cancel_iff] at h
          obtain ⟨a, b⟩ := (ih (k + 1)).mp ⟨fuel, Prod.ext h.1 h.2⟩
          refine ⟨by rw [show k + (n + 1) = k + 1 + n by omega]; exact a, fun j hj => ?_⟩
          cases j with
          | zero => exact hp
          | succ j => rw [show k + (j + 1) = k + 1 + j by omega]; exact b j (by omega)
        · simp at h
    · rintro ⟨h1, h2⟩
      obtain ⟨fuel, h⟩ := (ih (k + 1)).mpr ⟨by rw [show k + 1 + n = k + (n + 1) by omega]; exact h1, fun j hj => by
        rw [show k + 1 + j = k + (j + 1) by omega]; exact h2 (j + 1) (by omega)⟩
      refine ⟨fuel + 1, ?_⟩
      simp only [tail]
      rw [if_pos (show power k > 1 / 10 ^ 12 from h2 0 (by omega)), h]

/-- So a sound that comes back after a block of silence is cut off, and one that goes on for ever is rendered for ever. -/
theorem tail_violated : (∃ power : Nat → ℚ, ∃ j, power j = 1 ∧ ∃ fuel n, n < j ∧ tail power fuel 0 = (n, true)) ∧
    ∃ power : Nat → ℚ, ∀ fuel, (tail power fuel 0).2 = false := by
  constructor
  · exact ⟨fun k => if k = 5 then 1 else 0, 5, by simp, 1, 0, by norm_num, by norm_num [tail]⟩
  · refine ⟨fun _ => 1, fun fuel => ?_⟩
    generalize 0 = k
    induction fuel generalizing k with
    | zero => rfl
    | succ fuel ih =>
      simp only [tail]
      rw [if_pos (by norm_num)]
      exact ih (k + 1)

/-! ### Examples -/

/-- A note of half a second on channel 3, with a wheel message, rendered at 8 frames per second in blocks of 3. -/
example : renderTrack 8 3 10 (trackOf [(0, some (.noteOn 3 60 100)), (1 / 4, some (.bend 3 16383)), (1 / 4, some (.noteOn 3 60 0))] 1) =
    some ([[.noteOn 0 60 100, .pitchWheel 2 8191], [.noteOff 1 60 0]], true) := by decide +kernel

end Verif.Clients
