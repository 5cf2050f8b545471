import Verif.Render.Pitch

/-! C131: the sound of a note does not depend on the sizes of the blocks. -/
namespace Verif.Render
open Playback (cumsum)

/-! ### Specification -/

/-- What a voice is given in the course of time, frame by frame from its start, however the time is cut into blocks. -/
structure Course where
  eg : Nat → ℚ
  amplitude : Option (Nat → ℚ)
  volume : Option (Nat → ℚ)
  pitch : Option (Nat → ℚ)
  released : Bool
  loaded : Int

/-- The block of `n` frames from time `t` on. -/
def Course.block (L : Course) (t n : Nat) : Block where
  size := n
  eg := fun i => L.eg (t + i)
  amplitude := L.amplitude.map fun f i => f (t + i)
  volume := L.volume.map fun f i => f (t + i)
  pitch := L.pitch.map fun f i => f (t + i)
  loopStart := 0
  loopEnd := 0
  released := L.released
  loaded := L.loaded

/-- The time from `t` on cut into blocks of the given sizes, with the messages of each block. -/
def Course.cut (L : Course) (t : Nat) : List (List Midi.Op × Nat) → List (List Midi.Op × Block)
  | [] => []
  | (ops, n) :: ns => (ops, L.block t n) :: L.cut (t + n) ns

/-- The number of frames of blocks. -/
def total (ns : List (List Midi.Op × Nat)) : Nat := (ns.map (·.2)).sum

/-- Messages that move neither the bend nor the controllers of the crossfades of the region. -/
def Still (c : Const) (op : Midi.Op) : Prop := 0 ≤ op.delay ∧ LeavesBend op ∧ ∀ f ∈ c.fades, Leaves f.cc op

/-- A note that starts at the beginning of a block while nothing moves: the frames of all blocks in a row. -/
def note (c : Const) (L : Course) (pre : List Midi.Op) (len : Nat) (new : List Midi.Op) (ns : List (List Midi.Op × Nat)) : Option (List Out) :=
  played c (pre ++ .advance len :: new) 0 0 (L.cut 0 ns)

/-! ### Lemmas -/

theorem cut_mem {L : Course} {ns : List (List Midi.Op × Nat)} : ∀ {t : Nat} {b : List Midi.Op × Block}, b ∈ L.cut t ns →
    (∃ n ∈ ns, b.1 = n.1) ∧ b.2.loaded = L.loaded := by
  induction ns with
  | nil => intro t b h; simp [Course.cut] at h
  | cons n ns ih =>
    intro t b h
    obtain ⟨ops, n⟩ := n
    simp only [Course.cut, List.mem_cons] at h
    rcases h with rfl | h
    · exact ⟨⟨(ops, n), by simp, rfl⟩, rfl⟩
    · obtain ⟨⟨m, h1, h2⟩, h3⟩ := ih h
      exact ⟨⟨m, by simp [h1], h2⟩, h3⟩

/-- What each block gives by a law of its frames, the whole gives by the law of time. -/
theorem cut_flat (L : Course) (f : Out → List ℚ) (g : Block → Nat → ℚ) (G : Nat → ℚ) (hG : ∀ t n i, g (L.block t n) i = G (t + i))
    (ns : List (List Midi.Op × Nat)) : ∀ (t : Nat) (outs : List Out), outs.length = ns.length →
    (∀ p ∈ (L.cut t ns).zip outs, f p.2 = (List.range p.1.2.size).map (g p.1.2)) →
    outs.flatMap f = (List.range' t (total ns)).map G := by
  induction ns with
  | nil => intro t outs hl _; rw [List.length_eq_zero_iff.mp hl]; rfl
  | cons n ns ih =>
    intro t outs hl h
    obtain ⟨ops, n⟩ := n
    cases outs with
    | nil => simp at hl
    | cons o os =>
      have h1 := h ((ops, L.block t n), o) (by simp [Course.cut])
      have h2 := ih (t + n) os (by simpa using hl) (fun p hp => h p (by simp only [Course.cut, List.zip_cons_cons, List.mem_cons]; exact Or.inr hp))
      have e : total ((ops, n) :: ns) = n + total ns := by simp [total]
      rw [List.flatMap_cons, h2, e, ← List.range'_append_1, List.map_append]
      congr 1
      simp only at h1
      rw [h1]
      show (List.range n).map _ = _
      rw [List.range'_eq_map_range, List.map_map]
      exact List.map_congr_left fun i _ => hG t n i

theorem cut_length (L : Course) (ns : List (List Midi.Op × Nat)) : ∀ t, (L.cut t ns).length = ns.length := by
  induction ns with
  | nil => intro t; rfl
  | cons n ns ih => intro t; obtain ⟨ops, n⟩ := n; simp [Course.cut, ih]

/-- The gains of a block, given those of the crossfade. -/
theorem session_levels {c : Const} (bs : List (List Midi.Op × Block)) : ∀ {m : Midi.State} {v : Voice} {outs : List Out},
    (∀ k, Midi.Starts (Midi.vec m k)) → Timed bs → session c m v bs = some outs → ∀ p ∈ bs.zip outs,
    p.2.fade.length = p.1.2.size ∧ p.2.level = List.zipWith (· * ·) p.2.fade ((List.range p.1.2.size).map fun i =>
      p.1.2.eg i * c.baseGain * (p.1.2.amplitude.elim 1 fun f => f i) * c.db2mag c.baseVolume * (p.1.2.volume.elim 1 fun f => c.db2mag (f i))) := by
  induction bs with
  | nil => intro m v outs _ _ _ p hp; simp at hp
  | cons b bs ih =>
    intro m v outs hm hb h p hp
    obtain ⟨new, q⟩ := b
    simp only [session, Option.bind_eq_some_iff, Option.map_eq_some_iff] at h
    obtain ⟨r, hr, os, hos, rfl⟩ := h
    have hn := hb (new, q) (by simp)
    simp only [List.zip_cons_cons, List.mem_cons] at hp
    rcases hp with rfl | hp
    · obtain ⟨f1, _, f3, _⟩ := render_fade (starts_heard (b := (new, q)) hm hn) hr
      refine ⟨by simp only; rw [f1, Smoother.smoother_length]; simp, ?_⟩
      simp only
      rw [f3]
      congr 1
      apply List.ext_getElem?
      intro i
      by_cases hi : i < q.size
      · rw [amplitude_get c _ _ i hi]; simp [hi]
      · have : (amplitudeEnvelope c v.gain q).1.length = q.size := by
          unfold amplitudeEnvelope modulate
          cases q.amplitude <;> cases q.volume <;> simp [Smoother.smoother_length]
        rw [List.getElem?_eq_none (by omega), List.getElem?_eq_none (by simp; omega)]
    · exact ih (starts_next (b := (new, q)) hm hn _) (fun x hx => hb x (by simp [hx])) hos p hp

theorem session_cents_length {c : Const} (bs : List (List Midi.Op × Block)) (hl : ∀ b ∈ bs, b.2.loaded ≠ 0) :
    ∀ {m : Midi.State} {v : Voice} {outs : List Out}, v.initialDelay = 0 → session c m v bs = some outs →
    ∀ p ∈ bs.zip outs, p.2.cents.length = p.1.2.size := by
  induction bs with
  | nil => intro m v outs _ _ p hp; simp at hp
  | cons b bs ih =>
    intro m v outs hv h p hp
    obtain ⟨new, q⟩ := b
    simp only [session, Option.bind_eq_some_iff, Option.map_eq_some_iff] at h
    obtain ⟨r, hr, os, hos, rfl⟩ := h
    obtain ⟨_, _, _, _, _, _, _, _, h8, h9, _⟩ := render_places hr (hl (new, q) (by simp))
    rw [hv] at h8 h9
    simp only [List.zip_cons_cons, List.mem_cons] at hp
    rcases hp with rfl | hp
    · simpa using h9
    · exact ih (fun x hx => hl x (by simp [hx])) (by rw [h8]; omega) hos p hp

/-- The pitch at a time, in cents: the bend and the modulation. -/
def Course.cents (L : Course) (bend : ℚ) (t : Nat) : ℚ := bend + L.pitch.elim 0 fun f => f t

/-- The gain at a time. -/
def Course.level (L : Course) (c : Const) (fade : ℚ) (t : Nat) : ℚ :=
  fade * (L.eg t * c.baseGain * (L.amplitude.elim 1 fun f => f t) * c.db2mag c.baseVolume * (L.volume.elim 1 fun f => c.db2mag (f t)))

/-- The bend and the crossfade gain that stand when the note starts. -/
def standingBend (c : Const) (pre : List Midi.Op) : ℚ := c.bendInCents (bendValue (Midi.run pre))
def standingFade (c : Const) (pre : List Midi.Op) : ℚ := (c.fades.map fun f => f.gain (ccValue (Midi.run pre) f.cc)).prod

/-- The speed at a time. -/
def Course.speed (L : Course) (c : Const) (bend : ℚ) (t : Nat) : ℚ := c.baseRatio * c.centsFactor (L.cents bend t)

theorem note_cents (c : Const) (hq : c.bendStep ≤ 1) (L : Course) (hL : L.loaded ≠ 0) (pre : List Midi.Op) (len : Nat) (new : List Midi.Op)
    (hpre : ∀ op ∈ pre, 0 ≤ op.delay) (hnew : ∀ op ∈ new, Still c op) (ns : List (List Midi.Op × Nat)) (hns : ∀ n ∈ ns, ∀ op ∈ n.1, Still c op)
    (outs : List Out) (h : note c L pre len new ns = some outs) :
    outs.flatMap (·.cents) = (List.range (total ns)).map (L.cents (standingBend c pre)) := by
  have hall : ∀ op ∈ pre ++ .advance len :: new, 0 ≤ op.delay := by
    intro op ho
    simp only [List.mem_append, List.mem_cons] at ho
    rcases ho with ho | rfl | ho
    · exact hpre op ho
    · exact le_refl _
    · exact (hnew op ho).1
  have hlen := session_length _ h
  rw [cut_length] at hlen
  have hl : ∀ b ∈ L.cut 0 ns, b.2.loaded ≠ 0 := fun b hb => by rw [(cut_mem hb).2]; exact hL
  have h1 := pitch_at_rest c hq pre new len hall (fun op ho => (hnew op ho).2.1) 0 0 (L.cut 0 ns)
    (fun b hb op ho => by obtain ⟨⟨n, hn, e⟩, _⟩ := cut_mem hb; exact (hns n hn op (e ▸ ho)).2.1) hl outs h
  have h2 := session_cents_length _ hl (by rfl) h
  rw [List.range_eq_range']
  refine cut_flat L (·.cents) (fun b i => standingBend c pre + b.pitchAt i) _ ?_ ns 0 outs hlen ?_
  · intro t n i
    unfold Course.cents Block.pitchAt Course.block
    cases L.pitch <;> rfl
  · intro p hp
    apply List.ext_getElem?
    intro i
    by_cases hi : i < p.1.2.size
    · have hi' : i < p.2.cents.length := by rw [h2 p hp]; exact hi
      have := h1 p hp i _ (List.getElem?_eq_getElem hi')
      rw [List.getElem?_eq_getElem hi', this]
      simp [hi, standingBend]
    · rw [List.getElem?_eq_none (by rw [h2 p hp]; omega), List.getElem?_eq_none (by simp; omega)]

theorem note_levels (c : Const) (L : Course) (pre : List Midi.Op) (len : Nat) (new : List Midi.Op)
    (hpre : ∀ op ∈ pre, 0 ≤ op.delay) (hnew : ∀ op ∈ new, Still c op) (ns : List (List Midi.Op × Nat)) (hns : ∀ n ∈ ns, ∀ op ∈ n.1, Still c op)
    (outs : List Out) (h : note c L pre len new ns = some outs) :
    outs.flatMap (·.level) = (List.range (total ns)).map (L.level c (standingFade c pre)) := by
  have hall : ∀ op ∈ pre ++ .advance len :: new, 0 ≤ op.delay := by
    intro op ho
    simp only [List.mem_append, List.mem_cons] at ho
    rcases ho with ho | rfl | ho
    · exact hpre op ho
    · exact le_refl _
    · exact (hnew op ho).1
  have hlen := session_length _ h
  rw [cut_length] at hlen
  have hmsg : ∀ b ∈ L.cut 0 ns, ∀ op ∈ b.1, Still c op := fun b hb op ho => by
    obtain ⟨⟨n, hn, e⟩, _⟩ := cut_mem hb; exact hns n hn op (e ▸ ho)
  have ht : Timed (L.cut 0 ns) := fun b hb op ho => (hmsg b hb op ho).1
  have h1 := fade_start_partial c pre new len hall (fun op ho => (hnew op ho).2.2) 0 0 (L.cut 0 ns) ht
    (fun b hb op ho => (hmsg b hb op ho).2.2) outs h
  have h2 := session_levels _ (Midi.starts_run _ hall) ht h
  rw [List.range_eq_range']
  refine cut_flat L (·.level) (fun b i => standingFade c pre * (b.eg i * c.baseGain * (b.amplitude.elim 1 fun f => f i) *
    c.db2mag c.baseVolume * (b.volume.elim 1 fun f => c.db2mag (f i)))) _ ?_ ns 0 outs hlen ?_
  · intro t n i
    unfold Course.level Course.block
    cases L.amplitude <;> cases L.volume <;> rfl
  · intro p hp
    obtain ⟨k1, k2⟩ := h2 p hp
    have hmem : p.2 ∈ outs := (List.of_mem_zip hp).2
    rw [k2]
    apply List.ext_getElem?
    intro i
    by_cases hi : i < p.1.2.size
    · have hi' : i < p.2.fade.length := by rw [k1]; exact hi
      have := h1 p.2 hmem _ (List.getElem_mem hi')
      rw [List.getElem?_zipWith, List.getElem?_eq_getElem hi', this]
      simp [hi, standingFade]
    · rw [List.getElem?_eq_none (by simp [k1]; omega), List.getElem?_eq_none (by simp; omega)]

/-- The sample goes on during the whole note: it does not loop, the speeds are not negative, and all of them together stay within the
sample and within the precision of the counters of the code. -/
structure GoesOn (c : Const) (L : Course) (bend : ℚ) (frames : Nat) : Prop where
  mode : c.sample.mode ≠ .loopContinuous ∧ c.sample.mode ≠ .loopSustain
  loaded : L.loaded ≠ 0
  nonneg : ∀ t < frames, 0 ≤ L.speed c bend t
  small : ((List.range frames).map (L.speed c bend)).sum + 1 ≤ 2 ^ 24
  long : c.sample.offset + ((List.range frames).map (L.speed c bend)).sum < (min c.sample.sampleEnd_ (min c.sample.infoEnd L.loaded) - 1 : Int)

theorem note_speeds {c : Const} (hq : c.bendStep ≤ 1) {L : Course} (hL : L.loaded ≠ 0) {pre : List Midi.Op} {len : Nat} {new : List Midi.Op}
    (hpre : ∀ op ∈ pre, 0 ≤ op.delay) (hnew : ∀ op ∈ new, Still c op) {ns : List (List Midi.Op × Nat)} (hns : ∀ n ∈ ns, ∀ op ∈ n.1, Still c op)
    {outs : List Out} (h : note c L pre len new ns = some outs) :
    outs.flatMap (speeds c) = (List.range (total ns)).map (L.speed c (standingBend c pre)) := by
  have h1 := note_cents c hq L hL pre len new hpre hnew ns hns outs h
  have e : outs.flatMap (speeds c) = (outs.flatMap (·.cents)).map fun p => c.baseRatio * c.centsFactor p := by
    rw [List.map_flatMap]; rfl
  rw [e, h1, List.map_map]
  rfl

theorem sum_le_flat {c : Const} {outs : List Out} (h : ∀ x ∈ outs.flatMap (speeds c), 0 ≤ x) : ∀ o ∈ outs, (speeds c o).sum ≤ (outs.flatMap (speeds c)).sum := by
  induction outs with
  | nil => intro o ho; simp at ho
  | cons a outs ih =>
    intro o ho
    rw [List.flatMap_cons, List.sum_append]
    have h1 : 0 ≤ (speeds c a).sum := List.sum_nonneg fun x hx => h x (by rw [List.flatMap_cons]; simp [hx])
    have h2 : 0 ≤ (outs.flatMap (speeds c)).sum := List.sum_nonneg fun x hx => h x (by rw [List.flatMap_cons]; exact List.mem_append_right _ hx)
    rcases List.mem_cons.mp ho with rfl | ho
    · linarith
    · have := ih (fun x hx => h x (by rw [List.flatMap_cons]; exact List.mem_append_right _ hx)) o ho
      linarith

theorem note_places {c : Const} (hq : c.bendStep ≤ 1) {L : Course} {pre : List Midi.Op} {len : Nat} {new : List Midi.Op}
    (hpre : ∀ op ∈ pre, 0 ≤ op.delay) (hnew : ∀ op ∈ new, Still c op) (a b : List Midi.Op × Nat) {ns : List (List Midi.Op × Nat)}
    (hns : ∀ n ∈ a :: b :: ns, ∀ op ∈ n.1, Still c op) (hb : 0 < b.2) (hg : GoesOn c L (standingBend c pre) (total (a :: b :: ns)))
    {outs : List Out} (h : note c L pre len new (a :: b :: ns) = some outs) :
    outs.flatMap (·.places) = cumsum c.sample.offset
      (zeroHead (((List.range (total (a :: b :: ns))).map (L.speed c (standingBend c pre))).take a.2) ++
      (zeroHead ((((List.range (total (a :: b :: ns))).map (L.speed c (standingBend c pre))).drop a.2).take b.2) ++
      ((List.range (total (a :: b :: ns))).map (L.speed c (standingBend c pre))).drop (a.2 + b.2))) := by
  have hS := note_speeds hq hg.loaded hpre hnew hns h
  have hnn : ∀ x ∈ outs.flatMap (speeds c), 0 ≤ x := by
    rw [hS]
    intro x hx
    obtain ⟨t, ht, rfl⟩ := List.mem_map.mp hx
    exact hg.nonneg t (List.mem_range.mp ht)
  have hp : PlaysOn c c.sample.offset (L.cut 0 (a :: b :: ns)) outs :=
    { mode := hg.mode
      nonneg := fun o ho s hs => hnn s (List.mem_flatMap.mpr ⟨o, ho, hs⟩)
      small := fun o ho => by
        have := sum_le_flat hnn o ho
        rw [hS] at this
        have := hg.small
        linarith
      loaded := fun q hq => by rw [(cut_mem hq).2]; exact hg.loaded
      long := fun q hq => by
        have e : lastOf c q.2 = min c.sample.sampleEnd_ (min c.sample.infoEnd L.loaded) - 1 := by unfold lastOf; rw [(cut_mem hq).2]
        rw [e, hS]
        exact hg.long }
  obtain ⟨oa, na⟩ := a
  obtain ⟨ob, nb⟩ := b
  obtain ⟨o₀, o₁, os, rfl, l0, l1, hpl⟩ := two_blocks h (by simp) hb hp
  rw [hpl]
  have l0' : (speeds c o₀).length = na := by rw [l0]; simp [Course.block]
  have l1' : (speeds c o₁).length = nb := by rw [l1]; simp [Course.block]
  rw [← hS]
  simp only [List.flatMap_cons]
  rw [List.take_left' l0', List.drop_left' l0', List.take_left' l1', ← List.drop_drop, List.drop_left' l0', List.drop_left' l1']

/-! ### The theorems -/

/-- **C131, gain and pitch.** Two renderings of the same note during the same time, however it is cut into blocks, while neither the bend
nor a crossfade controller is moved: all frames have the same gain and the same pitch. -/
theorem block_size_gain_pitch (c : Const) (hq : c.bendStep ≤ 1) (L : Course) (hL : L.loaded ≠ 0) (pre : List Midi.Op) (len : Nat)
    (new : List Midi.Op) (hpre : ∀ op ∈ pre, 0 ≤ op.delay) (hnew : ∀ op ∈ new, Still c op) (ns ns' : List (List Midi.Op × Nat))
    (hns : ∀ n ∈ ns, ∀ op ∈ n.1, Still c op) (hns' : ∀ n ∈ ns', ∀ op ∈ n.1, Still c op)
    (ht : (ns.map (·.2)).sum = (ns'.map (·.2)).sum) :
    ∃ outs outs', note c L pre len new ns = some outs ∧ note c L pre len new ns' = some outs' ∧
      outs.flatMap (·.level) = outs'.flatMap (·.level) ∧ outs.flatMap (·.cents) = outs'.flatMap (·.cents) ∧
      (outs.flatMap (·.level)).length = (ns.map (·.2)).sum ∧ (outs.flatMap (·.cents)).length = (ns.map (·.2)).sum := by
  have hall : ∀ op ∈ pre ++ .advance len :: new, 0 ≤ op.delay := by
    intro op ho
    simp only [List.mem_append, List.mem_cons] at ho
    rcases ho with ho | rfl | ho
    · exact hpre op ho
    · exact le_refl _
    · exact (hnew op ho).1
  have hdef : ∀ ks : List (List Midi.Op × Nat), (∀ n ∈ ks, ∀ op ∈ n.1, Still c op) → ∃ outs, note c L pre len new ks = some outs := by
    intro ks hks
    refine rendering_defined c _ hall 0 0 _ fun b hb op ho => ?_
    obtain ⟨⟨n, hn, e⟩, _⟩ := cut_mem hb
    exact (hks n hn op (e ▸ ho)).1
  obtain ⟨outs, h⟩ := hdef ns hns
  obtain ⟨outs', h'⟩ := hdef ns' hns'
  have a1 := note_levels c L pre len new hpre hnew ns hns outs h
  have a2 := note_levels c L pre len new hpre hnew ns' hns' outs' h'
  have b1 := note_cents c hq L hL pre len new hpre hnew ns hns outs h
  have b2 := note_cents c hq L hL pre len new hpre hnew ns' hns' outs' h'
  have e : total ns = total ns' := ht
  refine ⟨outs, outs', h, h', by rw [a1, a2, e], by rw [b1, b2, e], by rw [a1]; simp [total], by rw [b1]; simp [total]⟩

/-- **C131, the sample.** If besides the sample goes on, and the first two blocks of both renderings have the same sizes, all frames read
the same places of the sample.
Missing: different sizes of the first two blocks, see `block_size_violated`. -/
theorem block_size_places_partial (c : Const) (hq : c.bendStep ≤ 1) (L : Course) (pre : List Midi.Op) (len : Nat) (new : List Midi.Op)
    (hpre : ∀ op ∈ pre, 0 ≤ op.delay) (hnew : ∀ op ∈ new, Still c op) (a b a' b' : List Midi.Op × Nat) (ns ns' : List (List Midi.Op × Nat))
    (hns : ∀ n ∈ a :: b :: ns, ∀ op ∈ n.1, Still c op) (hns' : ∀ n ∈ a' :: b' :: ns', ∀ op ∈ n.1, Still c op)
    (ha : a'.2 = a.2) (hb : b'.2 = b.2) (hpos : 0 < b.2) (ht : (ns.map (·.2)).sum = (ns'.map (·.2)).sum)
    (hg : GoesOn c L (c.bendInCents (bendValue (Midi.run pre))) (a.2 + b.2 + (ns.map (·.2)).sum)) (outs outs' : List Out)
    (h : note c L pre len new (a :: b :: ns) = some outs) (h' : note c L pre len new (a' :: b' :: ns') = some outs') :
    outs.flatMap (·.places) = outs'.flatMap (·.places) := by
  have e : total (a :: b :: ns) = a.2 + b.2 + (ns.map (·.2)).sum := by simp [total]; omega
  have e' : total (a' :: b' :: ns') = a.2 + b.2 + (ns.map (·.2)).sum := by rw [ht]; simp [total, ha, hb]; omega
  rw [note_places hq hpre hnew a b hns hpos (by rw [e]; exact hg) h, note_places hq hpre hnew a' b' hns' (by omega) (by rw [e']; exact hg) h', e, e', ha, hb]

/-! ### Cases -/

/-- A swelling tone with vibrato. -/
def sampleCourse : Course where
  eg := fun t => t / (t + 1)
  amplitude := none
  volume := none
  pitch := some fun t => if t % 2 = 0 then 0 else 1200
  released := false
  loaded := 1000

/-- A region that doubles its speed at an octave. -/
def fastRegion : Const := { sampleRegion with centsFactor := fun p => 1 + p / 1200 }

/-- The gains, pitches and places of a note in blocks of the given sizes. -/
def soundOf (ns : List Nat) : Option (List ℚ × List ℚ × List ℚ) :=
  (note fastRegion sampleCourse [.pitchBend 0 (1/2)] 8 [.cc 1 7 1] (ns.map fun n => ([], n))).map
    fun outs => (outs.flatMap (·.level), outs.flatMap (·.cents), outs.flatMap (·.places))

example : soundOf [1, 1, 3, 1] = soundOf [1, 1, 2, 2] ∧ (soundOf [1, 1, 2, 2]).map (·.2.1) = some [100, 1300, 100, 1300, 100, 1300] := by
  decide +kernel

example : GoesOn fastRegion sampleCourse 100 6 where
  mode := by decide
  loaded := by decide
  nonneg := by decide +kernel
  small := by decide +kernel
  long := by decide +kernel

example : ∀ op ∈ [Midi.Op.cc 1 7 1], Still fastRegion op := by
  intro op ho
  rw [List.mem_singleton.mp ho]
  refine ⟨by decide, fun s => rfl, fun f hf s => ?_⟩
  simp only [Const.fades, fastRegion, sampleRegion, List.cons_append, List.nil_append, List.mem_cons, List.not_mem_nil, or_false] at hf
  rcases hf with rfl | rfl <;> rfl

/-- C131 is violated: cut into blocks of two frames, the place is repeated at the third frame; in blocks of four it is at the fifth. -/
theorem block_size_violated :
    (soundOf [2, 2, 2, 2]).map (·.2.2) ≠ (soundOf [4, 4]).map (·.2.2) := by decide +kernel

/-- C131 is violated when the bend moves: the wheel is led from the beginning of the block to its message, so a message at the frame 6
sounds from frame 1 on in a block of 8 frames, and from frame 5 on in blocks of 4. -/
theorem block_size_bend_violated :
    (note sampleRegion sampleCourse [] 8 [] [([.pitchBend 6 1], 8)]).map (fun outs => outs.flatMap (·.cents)) =
      some [0, 1200 + 100/3, 200/3, 1300, 400/3, 1200 + 500/3, 200, 1400] ∧
    (note sampleRegion sampleCourse [] 8 [] [([], 4), ([.pitchBend 2 1], 4)]).map (fun outs => outs.flatMap (·.cents)) =
      some [0, 1200, 0, 1200, 0, 1300, 200, 1400] := by decide +kernel

end Verif.Render
