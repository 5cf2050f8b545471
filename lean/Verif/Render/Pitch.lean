import Verif.Render.Clock

/-! C121: the pitch of a voice, frame by frame. -/
namespace Verif.Render
open Verif.Midi (Starts)

/-- The pitch modulation of a block, at a frame. -/
def Block.pitchAt (b : Block) (i : Nat) : ℚ := b.pitch.elim 0 fun f => f i

/-! ### Lemmas -/

/-- The plain envelope without smoothing. -/
theorem pitch_plain {c : Const} (hs : c.bendFrames < 2) (hq : c.bendStep ≤ 1) {m : Midi.State} (hm : Starts m.pitch) {s : Smoother.State}
    {b : Block} {n : Nat} {r : List ℚ × Smoother.State} (h : pitchEnvelope c m s b.pitch n = some r) (i : Nat) (hi : i < n) :
    r.1[i]? = some (lineOf c.bendInCents m.pitch n i + b.pitchAt i) := by
  unfold pitchEnvelope at h
  rw [if_neg (by linarith), frames_linear _ _ hm] at h
  simp only [Option.map_some, Option.some.injEq] at h
  subst h
  simp only [Smoother.smoother_off _ hs]
  unfold Block.pitchAt
  cases b.pitch with
  | none => simp [hi]
  | some f => simp [hi]

/-- What is left of the delay of a voice. -/
theorem session_block {c : Const} (before : List (List Midi.Op × Block)) : ∀ {m : Midi.State} {v : Voice} {ops : List Midi.Op} {b : Block}
    {after : List (List Midi.Op × Block)} {outs : List Out}, session c m v (before ++ (ops, b) :: after) = some outs →
    (∀ q ∈ before, q.2.loaded ≠ 0) →
    ∃ v' r, render c (heard (midiAfter m before) (ops, b)) v' b = some r ∧ outs[before.length]? = some r.1 ∧
      v'.initialDelay = v.initialDelay - (before.map fun q => q.2.size).sum := by
  induction before with
  | nil =>
    intro m v ops b after outs h _
    simp only [List.nil_append, session, Option.bind_eq_some_iff, Option.map_eq_some_iff] at h
    obtain ⟨r, hr, os, _, rfl⟩ := h
    exact ⟨v, r, hr, rfl, by simp⟩
  | cons q before ih =>
    intro m v ops b after outs h hl
    obtain ⟨qo, qb⟩ := q
    simp only [List.cons_append, session, Option.bind_eq_some_iff, Option.map_eq_some_iff] at h
    obtain ⟨r, hr, os, hos, rfl⟩ := h
    obtain ⟨v', r', h1, h2, h3⟩ := ih hos (fun x hx => hl x (by simp [hx]))
    refine ⟨v', r', h1, by simpa using h2, ?_⟩
    obtain ⟨_, _, _, _, _, _, _, _, h8, _, _⟩ := render_places hr (hl (qo, qb) (by simp))
    rw [h3, h8, List.map_cons, List.sum_cons]
    simp only
    omega

/-! ### The theorems -/

/-- **C121, exactly.** Without smoothing and steps of the bend: in a block where `d` frames of the delay of the voice are left, the
`j`-th frame that sounds (the frame `d + j` of the block) has the pitch of the bend and of the modulation of frame `j`. -/
theorem pitch_shifted (c : Const) (hs : c.bendFrames < 2) (hq : c.bendStep ≤ 1) (pre : List Midi.Op) (hpre : ∀ op ∈ pre, 0 ≤ op.delay)
    (delay extra : Nat) (before after : List (List Midi.Op × Block)) (ops : List Midi.Op) (b : Block)
    (ht : Timed (before ++ (ops, b) :: after)) (hl : ∀ q ∈ before ++ [(ops, b)], q.2.loaded ≠ 0) (outs : List Out)
    (h : played c pre delay extra (before ++ (ops, b) :: after) = some outs) (d : Nat)
    (hd : d = delay + extra - (before.map fun q => q.2.size).sum) (j : Nat) (hj : d + j < b.size) :
    ∃ o, outs[before.length]? = some o ∧
      o.cents[j]? = some (lineOf c.bendInCents (heard (midiAfter (Midi.run pre) before) (ops, b)).pitch (b.size - d) j + b.pitchAt j) := by
  have hm := Midi.starts_run pre hpre
  obtain ⟨v', r, h1, h2, h3⟩ := session_block before h (fun q hq => hl q (by simp [hq]))
  have hst : Starts (heard (midiAfter (Midi.run pre) before) (ops, b)).pitch :=
    starts_heard (starts_after hm before (fun x hx => ht x (by simp [hx]))) (b := (ops, b)) (ht (ops, b) (by simp)) .pitch
  obtain ⟨_, _, _, _, _, _, _, _, _, _, h10⟩ := render_places h1 (hl (ops, b) (by simp))
  have hd' : v'.initialDelay = d := by rw [h3, hd]; rfl
  rw [hd', min_eq_left (by omega)] at h10
  obtain ⟨s, hs'⟩ := h10 (by omega)
  exact ⟨r.1, h2, pitch_plain hs hq hst hs' j (by omega)⟩

/-- **C121, at its frame.** In every block after the delay of the voice: the bend is that of each message at its frame, with the
modulation of this frame.
Missing: the block in which the voice starts, see `pitch_frame_violated`. -/
theorem pitch_frame_partial (c : Const) (hs : c.bendFrames < 2) (hq : c.bendStep ≤ 1) (pre : List Midi.Op) (hpre : ∀ op ∈ pre, 0 ≤ op.delay)
    (delay extra : Nat) (before after : List (List Midi.Op × Block)) (ops : List Midi.Op) (b : Block)
    (ht : Timed (before ++ (ops, b) :: after)) (hl : ∀ q ∈ before ++ [(ops, b)], q.2.loaded ≠ 0) (outs : List Out)
    (h : played c pre delay extra (before ++ (ops, b) :: after) = some outs)
    (hd : delay + extra ≤ (before.map fun q => q.2.size).sum)
    (e : Midi.Event) (he : e ∈ (heard (midiAfter (Midi.run pre) before) (ops, b)).pitch) (i : Nat) (hi : e.delay = i) (hib : i < b.size) :
    ∃ o, outs[before.length]? = some o ∧ o.cents[i]? = some (c.bendInCents e.value + b.pitchAt i) := by
  obtain ⟨o, h1, h2⟩ := pitch_shifted c hs hq pre hpre delay extra before after ops b ht hl outs h 0 (by omega) i (by omega)
  refine ⟨o, h1, ?_⟩
  rw [h2, Nat.sub_zero]
  congr 2
  have hst : Starts (heard (midiAfter (Midi.run pre) before) (ops, b)).pitch :=
    starts_heard (starts_after (Midi.starts_run pre hpre) before (fun x hx => ht x (by simp [hx]))) (b := (ops, b)) (ht (ops, b) (by simp)) .pitch
  generalize (heard (midiAfter (Midi.run pre) before) (ops, b)).pitch = events at he hst
  obtain ⟨hsort, v, es, rfl⟩ := hst
  obtain ⟨hs1, hs2⟩ := List.pairwise_cons.mp hsort
  rcases List.mem_cons.mp he with rfl | he
  · simp only at hi
    unfold lineOf
    simp only
    rw [show (i : Int) = 0 by omega]
    exact Envelope.lineAt_start _ _ _ _ _ hs1
  · obtain ⟨p, q, rfl⟩ := List.append_of_mem he
    unfold lineOf
    simp only
    have hq' : ∀ x ∈ q, e.delay < x.delay := by
      have := (List.pairwise_append.mp hs2).2.1
      exact (List.pairwise_cons.mp this).1
    rw [Envelope.lineAt_later c.bendInCents _ q e p 0 _ (by omega) hs1 hs2 i (by omega) (by omega), ← hi]
    exact Envelope.lineAt_start _ _ _ _ _ hq'

/-- A message leaves the pitch bend alone. -/
def LeavesBend (op : Midi.Op) : Prop := ∀ s, (Midi.step s op).pitch = s.pitch

theorem leavesBend_all (ops : List Midi.Op) (h : ∀ op ∈ ops, LeavesBend op) (m : Midi.State) : (ops.foldl Midi.step m).pitch = m.pitch := by
  induction ops generalizing m with
  | nil => rfl
  | cons op ops ih => rw [List.foldl_cons, ih (fun o ho => h o (by simp [ho])), h op (by simp)]

theorem pitch_still {c : Const} (hq : c.bendStep ≤ 1) {m : Midi.State} {w : ℚ} (hm : m.pitch = [⟨0, w⟩]) {b : Block} {n : Nat}
    {r : List ℚ × Smoother.State} (h : pitchEnvelope c m (Smoother.reset (c.bendInCents w)) b.pitch n = some r) (hn : n ≠ 0) :
    r.2 = Smoother.reset (c.bendInCents w) ∧ ∀ i, i < n → r.1[i]? = some (c.bendInCents w + b.pitchAt i) := by
  unfold pitchEnvelope at h
  rw [if_neg (by linarith), frames_linear _ _ (by rw [hm]; exact Midi.starts_single w), hm] at h
  simp only [Option.map_some, Option.some.injEq] at h
  have hx : (List.range n).map (lineOf c.bendInCents [⟨0, w⟩] n) = List.replicate n (c.bendInCents w) := by
    rw [List.eq_replicate_iff]
    refine ⟨by simp, fun y hy => ?_⟩
    obtain ⟨i, _, rfl⟩ := List.mem_map.mp hy
    rfl
  rw [hx] at h
  have hg : ∀ xs : List ℚ, (∀ x ∈ xs, x = c.bendInCents w) →
      Smoother.groups c.bendFrames (Smoother.reset (c.bendInCents w)) xs = (xs, Smoother.reset (c.bendInCents w)) := by
    intro xs
    have hgr : ∀ k, Smoother.group k c.bendFrames (Smoother.reset (c.bendInCents w)) (c.bendInCents w) =
        (List.replicate k (c.bendInCents w), Smoother.reset (c.bendInCents w)) := by
      intro k
      unfold Smoother.group Smoother.retarget Smoother.move Smoother.reset
      simp
    induction hlen : xs.length using Nat.strong_induction_on generalizing xs with
    | _ len ih =>
      intro hall
      unfold Smoother.groups
      split
      · rename_i h16
        have e15 : xs.getD 15 0 = c.bendInCents w := hall _ (Smoother.getD_mem (by omega))
        rw [e15, hgr]
        simp only
        rw [ih (xs.drop 16).length (by simp only [List.length_drop]; omega) (xs.drop 16) rfl (fun x hx => hall x (List.mem_of_mem_drop hx))]
        simp only [Prod.mk.injEq, and_true]
        have e1 : xs.take 16 = List.replicate 16 (c.bendInCents w) := by
          rw [List.eq_replicate_iff]
          refine ⟨by simp only [List.length_take]; omega, fun x hx => hall x (List.mem_of_mem_take hx)⟩
        rw [← e1, List.take_append_drop]
      · split
        · rename_i h0
          rw [List.length_eq_zero_iff.mp h0]
        · rename_i h0
          rw [hall _ (Smoother.getLastD_mem h0), hgr]
          have e1 : xs = List.replicate xs.length (c.bendInCents w) := List.eq_replicate_iff.mpr ⟨rfl, hall⟩
          rw [← e1]
  have hp : Smoother.process c.bendFrames (Smoother.reset (c.bendInCents w)) (List.replicate n (c.bendInCents w)) false =
      (List.replicate n (c.bendInCents w), Smoother.reset (c.bendInCents w)) := by
    unfold Smoother.process
    rw [if_neg (by simpa using hn)]
    split
    · obtain ⟨k, rfl⟩ := Nat.exists_eq_succ_of_ne_zero hn
      have : (List.replicate (k + 1) (c.bendInCents w)).getLastD 0 = c.bendInCents w :=
        List.eq_of_mem_replicate (Smoother.getLastD_mem (by simp))
      simp only [Nat.succ_eq_add_one]
      rw [this]
    · exact hg _ (fun x hx => List.eq_of_mem_replicate hx)
  rw [hp] at h
  subst h
  refine ⟨rfl, fun i hi => ?_⟩
  simp only
  unfold Block.pitchAt
  cases b.pitch with
  | none => simp [hi]
  | some f => simp [hi]

/-- **C121, at rest.** When the bend was not moved in the block of the start, nor later, every frame has the pitch of its value,
whatever the smoothing, plus the modulation. -/
theorem pitch_at_rest (c : Const) (hq : c.bendStep ≤ 1) (pre new : List Midi.Op) (len : Nat)
    (hpre : ∀ op ∈ pre ++ .advance len :: new, 0 ≤ op.delay) (hnew : ∀ op ∈ new, LeavesBend op) (delay extra : Nat)
    (bs : List (List Midi.Op × Block)) (hstill : ∀ b ∈ bs, ∀ op ∈ b.1, LeavesBend op) (hl : ∀ b ∈ bs, b.2.loaded ≠ 0) (outs : List Out)
    (h : played c (pre ++ .advance len :: new) delay extra bs = some outs) :
    ∀ p ∈ bs.zip outs, ∀ j x, p.2.cents[j]? = some x → x = c.bendInCents (bendValue (Midi.run pre)) + p.1.2.pitchAt j := by
  have hm0 := Midi.starts_run pre (fun op ho => hpre op (by simp [ho]))
  have hp0 : (Midi.run (pre ++ .advance len :: new)).pitch = [⟨0, bendValue (Midi.run pre)⟩] := by
    have e : Midi.run (pre ++ .advance len :: new) = new.foldl Midi.step (Midi.advanceTime (Midi.run pre) len) := by
      unfold Midi.run; rw [List.foldl_append, List.foldl_cons]; rfl
    rw [e, leavesBend_all new hnew]
    obtain ⟨_, v, t, hv⟩ := hm0 .pitch
    have hne : (Midi.run pre).pitch ≠ [] := by
      have : (Midi.run pre).pitch = ⟨0, v⟩ :: t := hv
      rw [this]; simp
    obtain ⟨w, h1, _, h3⟩ := Midi.flushVector_eq hne
    have e : (Midi.advanceTime (Midi.run pre) len).pitch = [⟨0, w⟩] := h3
    unfold bendValue
    rw [e, h1]; rfl
  unfold played at h
  have hv0 : (start c (Midi.run (pre ++ .advance len :: new)) delay extra).bend = Smoother.reset (c.bendInCents (bendValue (Midi.run pre))) := by
    show Smoother.reset (c.bendInCents (bendValue (Midi.run (pre ++ .advance len :: new)))) = _
    have : bendValue (Midi.run (pre ++ .advance len :: new)) = bendValue (Midi.run pre) := by
      conv_lhs => unfold bendValue
      rw [hp0]; rfl
    rw [this]
  generalize start c (Midi.run (pre ++ .advance len :: new)) delay extra = v at h hv0
  generalize Midi.run (pre ++ .advance len :: new) = m at h hp0
  generalize bendValue (Midi.run pre) = w at hp0 hv0 ⊢
  clear hm0 hpre hnew
  induction bs generalizing m v outs with
  | nil => simp
  | cons b bs ih =>
    obtain ⟨ops, b⟩ := b
    simp only [session, Option.bind_eq_some_iff, Option.map_eq_some_iff] at h
    obtain ⟨r, hr, os, hos, rfl⟩ := h
    have hh : (ops.foldl Midi.step m).pitch = [⟨0, w⟩] := by rw [leavesBend_all ops (hstill (ops, b) (by simp)), hp0]
    have key : r.2.bend = Smoother.reset (c.bendInCents w) ∧ ∀ j x, r.1.cents[j]? = some x → x = c.bendInCents w + b.pitchAt j := by
      have hr' := hr
      unfold render at hr'
      simp only [Option.bind_eq_some_iff, Option.map_eq_some_iff] at hr'
      obtain ⟨p, hp, x, _, rfl⟩ := hr'
      simp only
      split at hp
      · simp only [Option.some.injEq] at hp
        subst hp
        exact ⟨hv0, fun j x hx => by simp at hx⟩
      · rename_i hne
        rw [hv0] at hp
        obtain ⟨k1, k2⟩ := pitch_still hq hh hp (fun hz => hne (Or.inl hz))
        refine ⟨k1, fun j x hx => ?_⟩
        have hj : j < b.size - min v.initialDelay b.size := by
          have := (List.getElem?_eq_some_iff.mp hx).1
          rw [pitch_length hp] at this
          exact this
        rw [k2 j hj] at hx
        simpa using hx.symm
    have hnext : (Midi.advanceTime (ops.foldl Midi.step m) b.size).pitch = [⟨0, w⟩] := by
      show Midi.flushVector (ops.foldl Midi.step m).pitch = _
      rw [hh]; rfl
    intro p hp
    simp only [List.zip_cons_cons, List.mem_cons] at hp
    rcases hp with rfl | hp
    · exact key.2
    · exact ih (fun x hx => hstill x (by simp [hx])) (fun x hx => hl x (by simp [hx])) os r.2 _ hos hnext key.1 p hp

/-- **C121, the range of the bend.** The wheel at its top is the upper range of the region, at its bottom the lower one, at rest nothing, and
on both sides the pitch goes along a straight line. -/
theorem bend_range (c : Const) : c.bendInCents 1 = c.bendUp ∧ c.bendInCents (-1) = c.bendDown ∧ c.bendInCents 0 = 0 ∧
    ∀ a b t : ℚ, ((0 ≤ a ∧ 0 ≤ b) ∨ (a ≤ 0 ∧ b ≤ 0)) → 0 ≤ t → t ≤ 1 →
      c.bendInCents (a + t * (b - a)) = c.bendInCents a + t * (c.bendInCents b - c.bendInCents a) := by
  have up : ∀ x : ℚ, 0 ≤ x → c.bendInCents x = x * c.bendUp := by
    intro x hx
    unfold Const.bendInCents
    split
    · rfl
    · rw [le_antisymm (not_lt.mp ‹_›) hx]; ring
  have down : ∀ x : ℚ, x ≤ 0 → c.bendInCents x = -x * c.bendDown := fun x hx => by
    unfold Const.bendInCents
    rw [if_neg (not_lt.mpr hx)]
  refine ⟨by rw [up 1 (by norm_num), one_mul], by rw [down (-1) (by norm_num), neg_neg, one_mul], by rw [up 0 le_rfl, zero_mul], ?_⟩
  rintro a b t (⟨ha, hb⟩ | ⟨ha, hb⟩) h0 h1
  · have : 0 ≤ a + t * (b - a) := by nlinarith [mul_nonneg h0 hb, mul_nonneg (sub_nonneg.mpr h1) ha]
    rw [up _ ha, up _ hb, up _ this]; ring
  · have : a + t * (b - a) ≤ 0 := by
      nlinarith [mul_nonneg h0 (neg_nonneg.mpr hb), mul_nonneg (sub_nonneg.mpr h1) (neg_nonneg.mpr ha)]
    rw [down _ ha, down _ hb, down _ this]; ring

/-! ### Cases -/

/-- Bends downwards. -/
example : sampleRegion.bendInCents (-1/2) = -100 := by decide +kernel

example : LeavesBend (.cc 4 7 1) ∧ LeavesBend (.noteOn 3 60 1 0 0) := ⟨fun s => rfl, fun s => rfl⟩

/-- The pitch in cents of the frames that sound, for messages that arrive in the block of the start. -/
def centsOf (c : Const) (pre : List Midi.Op) (delay : Nat) (blocks : List (List Midi.Op × Block)) : Option (List (List ℚ)) :=
  (played c pre delay 0 blocks).map fun outs => outs.map (·.cents)

/-- A bend to the top at frame 2 of a later block. -/
example : centsOf sampleRegion [] 0 [([], sampleBlock 2), ([.pitchBend 2 1], sampleBlock 4)] = some [[0, 0], [0, 100, 200, 200]] := by
  decide +kernel

/-- A bend that stands at 150 cents from before the block of the start, with smoothing. -/
example : centsOf { sampleRegion with bendSmooth := 5 } ([.pitchBend 0 (3/4)] ++ .advance 8 :: [.cc 1 7 1]) 2
    [([], sampleBlock 4), ([.cc 1 7 0], sampleBlock 3)] = some [[150, 150], [150, 150, 150]] := by decide +kernel

/-- C121 is violated in the block of the start: a voice that starts at frame 4 of a block plays a bend for frame 5 one frame after its start
plus the delay, at frame 9; the frame 5 has no bend yet (200 cents are due). Nor does the pitch modulation arrive in time: what is due at
frame 4 of the block comes at frame 8. -/
theorem pitch_frame_violated :
    centsOf sampleRegion [] 4 [([.pitchBend 5 1], sampleBlock 12)] = some [[0, 40, 80, 120, 160, 200, 200, 200]] ∧
    centsOf sampleRegion [] 4 [([], { sampleBlock 12 with pitch := some fun i => if 4 ≤ i then 100 else 0 })] =
      some [[0, 0, 0, 0, 100, 100, 100, 100]] := by decide +kernel

/-- C121 is violated at rest, for a region with bend steps and smoothing: the bend stands at 150 cents when the voice starts, which is
100 cents in steps of 100, but the voice starts near 150 cents and glides to 100. -/
theorem bend_step_violated :
    centsOf { sampleRegion with bendStep := 100, bendSmooth := 5 } [.pitchBend 0 (3/4), .advance 8] 0 [([], sampleBlock 20)] =
      some [(List.range 20).map fun (i : Nat) => 150 - (5/2) * ((i : ℚ) + 1)] := by decide +kernel

end Verif.Render
