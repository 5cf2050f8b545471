import Verif.Render.Props
import Verif.Playback.Props

/-! C120: where in the sample the voice is, frame by frame. -/
namespace Verif.Render
open Playback (cumsum)

/-- A place in the sample: whole frames and fraction. -/
def place (x : Int × ℚ) : ℚ := x.1 + x.2

/-- The places in the sample that the frames of a block read, for those that sound. -/
def Out.places (o : Out) : List ℚ := (o.source.filterMap id).map place

/-- The speeds of the frames that sound: sample frames per output frame. -/
def speeds (c : Const) (o : Out) : List ℚ := o.cents.map fun p => c.baseRatio * c.centsFactor p

/-- The last index of the sample that is played, given how much of it is loaded (Voice.cpp:1165). -/
def lastOf (c : Const) (b : Block) : Int := min c.sample.sampleEnd_ (min c.sample.infoEnd b.loaded) - 1

/-- A list whose first entry is replaced by 0. -/
def zeroHead : List ℚ → List ℚ
  | [] => []
  | _ :: xs => 0 :: xs

/-- What the positions of the voice move by: the speeds, but 0 for the first frame of a block when the age is 0. -/
def moves (c : Const) : Int → Option Int → List (List Midi.Op × Block) → List Out → List ℚ
  | _, _, [], _ => []
  | _, _, _ :: _, [] => []
  | age, trig, b :: bs, o :: os =>
    (if age = 0 then zeroHead (speeds c o) else speeds c o) ++ moves c (ageAfter age trig b.2.size) none bs os

/-! ### One block -/

theorem shot_free (size : Int) (cn : Option Nat) (ml : Bool) (e : Int) (xs : List (Int × ℚ)) (h : ∀ x ∈ xs, x.1 < e) :
    ∀ i cnt, Playback.shotPass size cn ml e xs i 0 cnt = ⟨xs, none, cnt⟩ := by
  induction xs with
  | nil => intros; rfl
  | cons x xs ih =>
    intro i cnt
    obtain ⟨r, f⟩ := x
    have h1 := h (r, f) (by simp)
    have h0 : r - size * ((0 : Nat) : Int) = r := by push_cast; ring
    simp only [Playback.shotPass]
    rw [h0, if_neg (by omega), ih (fun y hy => h y (by simp [hy]))]

theorem cumsum_last (a : ℚ) (xs : List ℚ) : (cumsum a xs).getLastD a = a + xs.sum := by
  induction xs generalizing a with
  | nil => simp [cumsum]
  | cons x xs ih => simp only [cumsum]; rw [List.getLastD_cons, ih, List.sum_cons]; ring

theorem cumsum_append (a : ℚ) (xs ys : List ℚ) : cumsum a (xs ++ ys) = cumsum a xs ++ cumsum (a + xs.sum) ys := by
  induction xs generalizing a with
  | nil => simp [cumsum]
  | cons x xs ih => simp only [List.cons_append, cumsum, ih, List.sum_cons]; rw [add_assoc]

theorem block_places (s : Playback.Setup) (hs : s.mode ≠ .loopContinuous ∧ s.mode ≠ .loopSustain) (st : Playback.State) (b : Playback.Block)
    (hf0 : 0 ≤ st.frac) (hf1 : st.frac < 1) (hj : ∀ j ∈ b.jumps, 0 ≤ j) (hsum : b.jumps.sum + 1 ≤ 2 ^ 24) (hload : b.frames ≠ 0)
    (hend : (st.pos : ℚ) + st.frac + b.jumps.sum < Playback.lastIndex s b) :
    (Playback.fillBlock s st b).frames.map place = cumsum (st.pos + st.frac) (if b.fresh then zeroHead b.jumps else b.jumps) ∧
      ((Playback.fillBlock s st b).st.pos : ℚ) + (Playback.fillBlock s st b).st.frac =
        st.pos + st.frac + (if b.fresh then zeroHead b.jumps else b.jumps).sum ∧
      0 ≤ (Playback.fillBlock s st b).st.frac ∧ (Playback.fillBlock s st b).st.frac < 1 := by
  have hz : (if b.fresh then zeroHead b.jumps else b.jumps) = Playback.advances b := by
    unfold Playback.advances zeroHead
    cases b.jumps with
    | nil => cases b.fresh <;> rfl
    | cons j js => cases b.fresh <;> rfl
  rw [hz]
  have hadv := Playback.advances_nonneg b hj
  have hle : (Playback.advances b).sum ≤ b.jumps.sum := by
    rw [← hz]
    cases hb : b.jumps with
    | nil => cases b.fresh <;> simp [zeroHead]
    | cons j js =>
      have := hj j (by simp [hb])
      cases b.fresh <;> simp [zeroHead, this]
  have hcs : ∀ x ∈ cumsum st.frac (Playback.advances b), x ≤ st.frac + (Playback.advances b).sum :=
    Playback.cumsum_le _ _ _ hadv (le_refl _)
  have hraw : (Playback.rawPositions st b).map place = cumsum (st.pos + st.frac) (Playback.advances b) := by
    rw [Playback.raw_eq, List.map_map, add_comm (st.pos : ℚ), Playback.cumsum_shift]
    apply List.map_congr_left
    intro x hx
    have h1 := hcs x hx
    have h2 := Playback.cast_sum (x := x) (by linarith)
    simp only [Function.comp, place]
    push_cast
    linarith
  have hidx : ∀ x ∈ Playback.rawPositions st b, x.1 < Playback.lastIndex s b ∧ 0 ≤ x.2 ∧ x.2 < 1 := by
    intro x hx
    have h0 := (Playback.raw_facts st b hf0 hj).2 x hx
    refine ⟨?_, h0.2⟩
    have h1 : place x ∈ cumsum (st.pos + st.frac) (Playback.advances b) := by rw [← hraw]; exact List.mem_map_of_mem hx
    have h2 := Playback.cumsum_le _ _ _ hadv (le_refl _) _ h1
    have h3 : (x.1 : ℚ) < Playback.lastIndex s b := by
      have : place x = x.1 + x.2 := rfl
      linarith [h0.2.1]
    exact_mod_cast h3
  unfold Playback.fillBlock
  by_cases hne : b.jumps = []
  · rw [if_pos (Or.inl hne)]
    have ha : Playback.advances b = [] := by unfold Playback.advances; rw [hne]
    rw [ha]
    exact ⟨rfl, by simp, hf0, hf1⟩
  · rw [if_neg (by rintro (h | h) <;> contradiction)]
    have hl : Playback.loops s st b = false := by
      unfold Playback.loops
      obtain ⟨h1, h2⟩ := hs
      have e1 : (s.mode == .loopContinuous) = false := by simpa using h1
      have e2 : (s.mode == .loopSustain) = false := by simpa using h2
      rw [e1, e2]; simp
    simp only [hl, Bool.false_eq_true, if_false]
    rw [shot_free _ _ _ _ _ (fun x hx => (hidx x hx).1)]
    simp only
    refine ⟨hraw, ?_⟩
    have hlen := Playback.raw_length st b
    cases hg : (Playback.rawPositions st b).getLast? with
    | none =>
      rw [List.getLast?_eq_none_iff] at hg
      rw [hg] at hlen
      exact absurd (List.length_eq_zero_iff.mp hlen.symm) hne
    | some x =>
      unfold Playback.finish
      rw [hg]
      have hmem := List.mem_of_getLast? hg
      refine ⟨?_, (hidx x hmem).2⟩
      have h1 := cumsum_last (st.pos + st.frac) (Playback.advances b)
      rw [← hraw, List.getLastD_eq_getLast?, List.getLast?_map, hg] at h1
      exact h1

/-! ### A session -/

/-- What is assumed of the region, the blocks and the frames that come out, for the sample to play on and not to end: a region that
does not loop, speeds that are not negative and whose sum in a block is below 2^24, and a sample that is loaded and longer than
what is played. -/
structure PlaysOn (c : Const) (place0 : ℚ) (bs : List (List Midi.Op × Block)) (outs : List Out) : Prop where
  mode : c.sample.mode ≠ .loopContinuous ∧ c.sample.mode ≠ .loopSustain
  nonneg : ∀ o ∈ outs, ∀ s ∈ speeds c o, 0 ≤ s
  small : ∀ o ∈ outs, (speeds c o).sum + 1 ≤ 2 ^ 24
  loaded : ∀ b ∈ bs, b.2.loaded ≠ 0
  long : ∀ b ∈ bs, place0 + (outs.flatMap (speeds c)).sum < lastOf c b.2

theorem sum_zeroHead_le {xs : List ℚ} (h : ∀ x ∈ xs, 0 ≤ x) : (zeroHead xs).sum ≤ xs.sum := by
  cases xs with
  | nil => exact le_refl _
  | cons x xs => have := h x (by simp); simp only [zeroHead, List.sum_cons]; linarith

theorem mapM_length {α β : Type} (g : α → Option β) (l : List α) (r : List β) (h : l.mapM g = some r) : r.length = l.length := by
  induction l generalizing r with
  | nil => simp only [List.mapM_nil] at h; cases h; rfl
  | cons x l ih =>
    rw [List.mapM_cons] at h
    cases hx : g x with
    | none => rw [hx] at h; cases h
    | some y =>
      cases hl : l.mapM g with
      | none => rw [hx, hl] at h; cases h
      | some ys => rw [hx, hl] at h; cases h; simp [ih ys hl]

theorem frames_length {n : Nat} {log : Option Envelope.Log} {xs : List ℚ} (h : frames n log = some xs) : xs.length = n := by
  unfold frames at h
  rw [Option.bind_eq_some_iff] at h
  obtain ⟨l, _, h⟩ := h
  rw [mapM_length _ _ _ h, List.length_range]

theorem pitch_length {c : Const} {m : Midi.State} {s : Smoother.State} {mod : Option (Nat → ℚ)} {n : Nat} {r : List ℚ × Smoother.State}
    (h : pitchEnvelope c m s mod n = some r) : r.1.length = n := by
  unfold pitchEnvelope at h
  rw [Option.map_eq_some_iff] at h
  obtain ⟨xs, hx, rfl⟩ := h
  have := frames_length hx
  cases mod with
  | none => simp only; rw [Smoother.smoother_length, this]
  | some f => simp only; rw [List.length_mapIdx, Smoother.smoother_length, this]

theorem render_places {c : Const} {m : Midi.State} {v : Voice} {b : Block} {r : Out × Voice} (h : render c m v b = some r) (hl : b.loaded ≠ 0) :
    ∃ pb : Playback.Block, pb.jumps = speeds c r.1 ∧ pb.fresh = decide (v.age = 0) ∧ pb.frames = b.loaded ∧
      r.1.places = (Playback.fillBlock c.sample v.play pb).frames.map place ∧ r.2.play = (Playback.fillBlock c.sample v.play pb).st ∧
      r.2.age = ageAfter v.age v.triggerDelay b.size ∧ r.2.triggerDelay = none ∧
      r.2.initialDelay = v.initialDelay - min v.initialDelay b.size ∧ r.1.cents.length = b.size - min v.initialDelay b.size ∧
      (b.size - min v.initialDelay b.size ≠ 0 → ∃ s, pitchEnvelope c m v.bend b.pitch (b.size - min v.initialDelay b.size) = some (r.1.cents, s)) := by
  unfold render at h
  simp only [Option.bind_eq_some_iff, Option.map_eq_some_iff] at h
  obtain ⟨p, hp, x, hx, rfl⟩ := h
  refine ⟨_, rfl, rfl, rfl, ?_, rfl, rfl, rfl, rfl, ?_, ?_⟩
  · unfold Out.places
    simp only [if_neg hl, List.filterMap_append, List.filterMap_map]
    congr 1
    have e1 : ∀ n, (List.replicate n (none : Option (Int × ℚ))).filterMap id = [] := by
      intro n; induction n with
      | zero => rfl
      | succ n ih => rw [List.replicate_succ]; simpa using ih
    rw [e1, List.nil_append]
    have : ((id : Option (Int × ℚ) → _) ∘ some) = some := rfl
    rw [this, List.filterMap_some]
  · simp only
    split at hp
    · rename_i h0
      simp only [Option.some.injEq] at hp; rw [← hp, h0.resolve_right hl]; rfl
    · exact pitch_length hp
  · intro hr
    rw [if_neg (by rintro (h | h) <;> contradiction)] at hp
    exact ⟨_, hp⟩

theorem session_places {c : Const} (bs : List (List Midi.Op × Block)) : ∀ {m : Midi.State} {v : Voice} {outs : List Out},
    session c m v bs = some outs → PlaysOn c (v.play.pos + v.play.frac) bs outs → 0 ≤ v.play.frac → v.play.frac < 1 →
    outs.flatMap (·.places) = cumsum (v.play.pos + v.play.frac) (moves c v.age v.triggerDelay bs outs) := by
  induction bs with
  | nil => intro m v outs h _ _ _; simp only [session, Option.some.injEq] at h; subst h; rfl
  | cons b bs ih =>
    intro m v outs h hp hf0 hf1
    obtain ⟨ops, b⟩ := b
    simp only [session, Option.bind_eq_some_iff, Option.map_eq_some_iff] at h
    obtain ⟨r, hr, os, hos, rfl⟩ := h
    obtain ⟨pb, h1, h2, h3, h4, h5, h6, h7, _, _, _⟩ := render_places hr (hp.loaded (ops, b) (by simp))
    have hnn : ∀ j ∈ pb.jumps, 0 ≤ j := by rw [h1]; exact hp.nonneg _ (by simp)
    have hrest : 0 ≤ (os.flatMap (speeds c)).sum := by
      apply List.sum_nonneg
      intro x hx
      obtain ⟨o, ho, hx⟩ := List.mem_flatMap.mp hx
      exact hp.nonneg o (by simp [ho]) x hx
    have hlast : ∀ q ∈ (ops, b) :: bs, (v.play.pos : ℚ) + v.play.frac + ((speeds c r.1).sum + (os.flatMap (speeds c)).sum) < lastOf c q.2 := by
      intro q hq
      have := hp.long q hq
      simpa only [List.flatMap_cons, List.sum_append] using this
    obtain ⟨b1, b2, b3, b4⟩ := block_places c.sample hp.mode v.play pb hf0 hf1 hnn (by rw [h1]; exact hp.small _ (by simp))
      (by rw [h3]; exact hp.loaded (ops, b) (by simp))
      (by
        have e : Playback.lastIndex c.sample pb = lastOf c b := by unfold Playback.lastIndex lastOf; rw [h3]
        rw [e, h1]
        have := hlast _ (by simp : (ops, b) ∈ (ops, b) :: bs)
        simp only at this
        linarith)
    rw [h1, h2] at b1 b2
    rw [← h5] at b2 b3 b4
    simp only [decide_eq_true_eq] at b1 b2
    have hle : (if v.age = 0 then zeroHead (speeds c r.1) else speeds c r.1).sum ≤ (speeds c r.1).sum := by
      split
      · exact sum_zeroHead_le (hp.nonneg _ (by simp))
      · exact le_refl _
    have := ih hos ⟨hp.mode, fun o ho => hp.nonneg o (by simp [ho]), fun o ho => hp.small o (by simp [ho]),
      fun q hq => hp.loaded q (by simp [hq]), fun q hq => by
        have h := hlast q (by simp [hq])
        rw [b2]
        linarith⟩ b3 b4
    simp only [List.flatMap_cons, moves]
    rw [this, h4, b1, cumsum_append, b2, h6, h7]

theorem cumsum_get (a : ℚ) (xs : List ℚ) (k : Nat) (y : ℚ) (h : (cumsum a xs)[k]? = some y) : y = a + (xs.take (k + 1)).sum := by
  induction xs generalizing a k with
  | nil => simp [cumsum] at h
  | cons x xs ih =>
    simp only [cumsum] at h
    cases k with
    | zero => simp only [List.getElem?_cons_zero, Option.some.injEq] at h; subst h; simp
    | succ k =>
      simp only [List.getElem?_cons_succ] at h
      rw [ih _ _ h, List.take_succ_cons, List.sum_cons]; ring

/-- A voice with a positive age moves by its speeds. -/
theorem moves_old {c : Const} (bs : List (List Midi.Op × Block)) : ∀ (age : Int) (outs : List Out), 0 < age → outs.length = bs.length →
    moves c age none bs outs = outs.flatMap (speeds c) := by
  induction bs with
  | nil => intro age outs _ hl; rw [List.length_eq_zero_iff.mp hl]; rfl
  | cons b bs ih =>
    intro age outs ha hl
    cases outs with
    | nil => simp at hl
    | cons o os =>
      simp only [moves, List.flatMap_cons]
      rw [if_neg (by omega), ih _ _ (by unfold ageAfter; simp only; omega) (by simpa using hl)]

theorem session_length {c : Const} (bs : List (List Midi.Op × Block)) : ∀ {m : Midi.State} {v : Voice} {outs : List Out},
    session c m v bs = some outs → outs.length = bs.length := by
  induction bs with
  | nil => intro m v outs h; simp only [session, Option.some.injEq] at h; subst h; rfl
  | cons b bs ih =>
    intro m v outs h
    obtain ⟨ops, b⟩ := b
    simp only [session, Option.bind_eq_some_iff, Option.map_eq_some_iff] at h
    obtain ⟨r, _, os, hos, rfl⟩ := h
    simp [ih hos]

theorem take_zeroHead (xs : List ℚ) (k : Nat) : ((zeroHead xs).take (k + 1)).sum = (xs.take (k + 1)).sum - xs.headD 0 := by
  cases xs with
  | nil => simp [zeroHead]
  | cons x xs => simp [zeroHead]

theorem drop_sum (xs : List ℚ) (k : Nat) : ((xs.take (k + 1)).drop 1).sum = (xs.take (k + 1)).sum - xs.headD 0 := by
  cases xs with
  | nil => simp
  | cons x xs => simp

/-- The first two blocks of a voice. -/
theorem two_blocks {c : Const} {pre : List Midi.Op} {delay extra : Nat} {b₀ b₁ : List Midi.Op × Block} {bs : List (List Midi.Op × Block)}
    {outs : List Out} (h : played c pre delay extra (b₀ :: b₁ :: bs) = some outs) (hd : delay ≤ b₀.2.size) (hpos : 0 < b₁.2.size)
    (hp : PlaysOn c c.sample.offset (b₀ :: b₁ :: bs) outs) :
    ∃ o₀ o₁ os, outs = o₀ :: o₁ :: os ∧ (speeds c o₀).length = b₀.2.size - min (delay + extra) b₀.2.size ∧
      (speeds c o₁).length = b₁.2.size - min (delay + extra - b₀.2.size) b₁.2.size ∧
      outs.flatMap (·.places) = cumsum c.sample.offset (zeroHead (speeds c o₀) ++ (zeroHead (speeds c o₁) ++ os.flatMap (speeds c))) := by
  have hlen := session_length _ h
  have hpl := session_places _ h (by simpa [start, Playback.Setup.init] using hp) (by simp [start, Playback.Setup.init])
    (by simp [start, Playback.Setup.init])
  unfold played at h
  obtain ⟨ops₀, b₀⟩ := b₀
  obtain ⟨ops₁, b₁⟩ := b₁
  simp only [session, Option.bind_eq_some_iff, Option.map_eq_some_iff] at h
  obtain ⟨r₀, hr₀, os', ⟨r₁, hr₁, os, hos, rfl⟩, rfl⟩ := h
  refine ⟨r₀.1, r₁.1, os, rfl, ?_, ?_, ?_⟩
  · obtain ⟨_, _, _, _, _, _, _, _, _, h9, _⟩ := render_places hr₀ (hp.loaded (ops₀, b₀) (by simp))
    simpa [speeds, start] using h9
  · obtain ⟨_, _, _, _, _, _, _, _, h8, _, _⟩ := render_places hr₀ (hp.loaded (ops₀, b₀) (by simp))
    obtain ⟨_, _, _, _, _, _, _, _, _, h9, _⟩ := render_places hr₁ (hp.loaded (ops₁, b₁) (by simp))
    rw [h8] at h9
    simp only [start] at h9
    unfold speeds
    rw [List.length_map, h9]
    simp only
    omega
  · rw [hpl]
    have e1 : ageAfter (0 : Int) (some (delay : Int)) b₀.size = 0 := by
      unfold ageAfter; simp only at hd ⊢; omega
    have e2 : ageAfter (0 : Int) none b₁.size = b₁.size := by unfold ageAfter; simp
    have e0 : (start c (Midi.run pre) delay extra).age = 0 := rfl
    have et : (start c (Midi.run pre) delay extra).triggerDelay = some (delay : Int) := rfl
    simp only [moves, e0, et, if_true, e1, e2]
    rw [moves_old bs _ os (by simp only at hpos; omega) (by simpa using hlen)]
    simp [start, Playback.Setup.init]

/-! ### The theorems -/

/-- **C120, in the block of the start.** When the sample starts in the block of the trigger, the `k`-th frame that sounds reads the
sample at its offset plus the speeds of the frames since the first; but from the second block on, it is behind by the speed of the first frame of the
second block. Missing: that nothing is lost there, see `sample_clock_violated`. -/
theorem sample_clock_partial (c : Const) (pre : List Midi.Op) (delay extra : Nat) (b₀ b₁ : List Midi.Op × Block)
    (bs : List (List Midi.Op × Block)) (outs : List Out) (h : played c pre delay extra (b₀ :: b₁ :: bs) = some outs)
    (hd : delay + extra < b₀.2.size) (hpos : 0 < b₁.2.size) (hp : PlaysOn c c.sample.offset (b₀ :: b₁ :: bs) outs)
    (k : Nat) (y : ℚ) (hy : (outs.flatMap (·.places))[k]? = some y) :
    y = c.sample.offset + (((outs.flatMap (speeds c)).take (k + 1)).drop 1).sum -
      (if b₀.2.size - (delay + extra) ≤ k then (outs.flatMap (speeds c)).getD (b₀.2.size - (delay + extra)) 0 else 0) := by
  obtain ⟨o₀, o₁, os, rfl, l0, l1, hpl⟩ := two_blocks h (by omega) hpos hp
  rw [hpl] at hy
  have hy := cumsum_get _ _ _ _ hy
  rw [hy, drop_sum, List.flatMap_cons, List.flatMap_cons]
  rw [min_eq_left (by omega)] at l0
  rw [Nat.sub_eq_zero_of_le (by omega : delay + extra ≤ b₀.2.size)] at l1
  generalize speeds c o₀ = s0 at *
  generalize speeds c o₁ = s1 at *
  generalize os.flatMap (speeds c) = r
  have z0 : (zeroHead s0).length = s0.length := by cases s0 <;> rfl
  have ne0 : s0 ≠ [] := by rintro rfl; simp at l0; omega
  have ne1 : s1 ≠ [] := by rintro rfl; simp at l1; omega
  have e1 : zeroHead s1 ++ r = zeroHead (s1 ++ r) := by cases s1 with
    | nil => exact absurd rfl ne1
    | cons x s => rfl
  have hh : (s0 ++ (s1 ++ r)).headD 0 = s0.headD 0 := by cases s0 with
    | nil => exact absurd rfl ne0
    | cons x s => rfl
  rw [e1, List.take_append, List.take_append, List.sum_append, List.sum_append, take_zeroHead, hh, z0, ← l0]
  split
  · rename_i hk
    rw [show k + 1 - s0.length = (k - s0.length) + 1 by omega, take_zeroHead]
    have : (s0 ++ (s1 ++ r)).getD s0.length 0 = (s1 ++ r).headD 0 := by
      rw [List.getD_eq_getElem?_getD, List.getElem?_append_right (le_refl _), Nat.sub_self]
      cases s1 <;> cases r <;> rfl
    rw [this]; ring
  · rename_i hk
    rw [show k + 1 - s0.length = 0 by omega]
    simp only [List.take_zero, List.sum_nil]
    ring

/-- **C120, in the second block.** When the sample starts in the block after the one of the trigger (because of a delay), every
frame reads the right place. -/
theorem sample_clock_second (c : Const) (pre : List Midi.Op) (delay extra : Nat) (b₀ b₁ : List Midi.Op × Block)
    (bs : List (List Midi.Op × Block)) (outs : List Out) (h : played c pre delay extra (b₀ :: b₁ :: bs) = some outs)
    (hd : delay ≤ b₀.2.size) (hd0 : b₀.2.size ≤ delay + extra) (hd1 : delay + extra < b₀.2.size + b₁.2.size)
    (hp : PlaysOn c c.sample.offset (b₀ :: b₁ :: bs) outs) (k : Nat) (y : ℚ) (hy : (outs.flatMap (·.places))[k]? = some y) :
    y = c.sample.offset + (((outs.flatMap (speeds c)).take (k + 1)).drop 1).sum := by
  obtain ⟨o₀, o₁, os, rfl, l0, l1, hpl⟩ := two_blocks h hd (by omega) hp
  rw [hpl] at hy
  have hy := cumsum_get _ _ _ _ hy
  rw [hy, drop_sum, List.flatMap_cons, List.flatMap_cons]
  generalize speeds c o₀ = s0 at *
  generalize speeds c o₁ = s1 at *
  generalize os.flatMap (speeds c) = r
  have e0 : s0 = [] := List.length_eq_zero_iff.mp (by rw [l0]; omega)
  have ne1 : s1 ≠ [] := by rintro rfl; simp at l1; omega
  have e1 : zeroHead s1 ++ r = zeroHead (s1 ++ r) := by cases s1 with
    | nil => exact absurd rfl ne1
    | cons x s => rfl
  subst e0
  rw [e1, show zeroHead [] = [] from rfl, List.nil_append, List.nil_append, take_zeroHead]

/-- **C120, later.** When the sample starts after the second block, every frame is ahead by the speed of the first one. Missing:
that the sample starts at its offset, see `sample_clock_violated`. -/
theorem sample_clock_later_partial (c : Const) (pre : List Midi.Op) (delay extra : Nat) (b₀ b₁ : List Midi.Op × Block)
    (bs : List (List Midi.Op × Block)) (outs : List Out) (h : played c pre delay extra (b₀ :: b₁ :: bs) = some outs)
    (hd : delay ≤ b₀.2.size) (hpos : 0 < b₁.2.size) (hd1 : b₀.2.size + b₁.2.size ≤ delay + extra)
    (hp : PlaysOn c c.sample.offset (b₀ :: b₁ :: bs) outs) (k : Nat) (y : ℚ) (hy : (outs.flatMap (·.places))[k]? = some y) :
    y = c.sample.offset + (((outs.flatMap (speeds c)).take (k + 1)).drop 1).sum + (outs.flatMap (speeds c)).headD 0 := by
  obtain ⟨o₀, o₁, os, rfl, l0, l1, hpl⟩ := two_blocks h hd hpos hp
  rw [hpl] at hy
  have hy := cumsum_get _ _ _ _ hy
  rw [hy, drop_sum, List.flatMap_cons, List.flatMap_cons]
  generalize speeds c o₀ = s0 at *
  generalize speeds c o₁ = s1 at *
  generalize os.flatMap (speeds c) = r
  have e0 : s0 = [] := List.length_eq_zero_iff.mp (by rw [l0]; omega)
  have e1 : s1 = [] := List.length_eq_zero_iff.mp (by rw [l1]; omega)
  subst e0 e1
  simp only [zeroHead, List.nil_append]
  ring

/-- The places a voice at speed 1 reads, for blocks of the given sizes. -/
def placesOf (extra : Nat) (sizes : List Nat) : Option (List ℚ) :=
  (played sampleRegion [] 0 extra (sizes.map fun n => ([], sampleBlock n))).map fun outs => outs.flatMap (·.places)

/-- C120 is violated: the places read depend on the size of the blocks. In one block of 8 frames a voice reads the frames 0 to 7 of its
sample. In two blocks of 4 frames it reads the last frame of the first block again, and in blocks of 2 frames with a delay of 4
frames it leaves out the first frame of the sample. -/
theorem sample_clock_violated :
    placesOf 0 [8] = some [0, 1, 2, 3, 4, 5, 6, 7] ∧ placesOf 0 [4, 4] = some [0, 1, 2, 3, 3, 4, 5, 6] ∧
    placesOf 4 [12] = some [0, 1, 2, 3, 4, 5, 6, 7] ∧ placesOf 4 [2, 2, 2, 2, 2] = some [1, 2, 3, 4, 5, 6] := by decide +kernel

/-- The hypotheses of the theorems, in the case of two blocks of 4 frames. -/
example : ∃ outs, played sampleRegion [] 0 0 [([], sampleBlock 4), ([], sampleBlock 4)] = some outs ∧
    PlaysOn sampleRegion sampleRegion.sample.offset [([], sampleBlock 4), ([], sampleBlock 4)] outs := by
  obtain ⟨outs, h⟩ := rendering_defined sampleRegion [] (by simp) 0 0 [([], sampleBlock 4), ([], sampleBlock 4)] (by intro b hb; simp at hb; subst hb; simp)
  have hs : outs.map (speeds sampleRegion) = [[1, 1, 1, 1], [1, 1, 1, 1]] := by
    have e : (played sampleRegion [] 0 0 [([], sampleBlock 4), ([], sampleBlock 4)]).map (fun outs => outs.map (speeds sampleRegion)) =
      some [[1, 1, 1, 1], [1, 1, 1, 1]] := by decide +kernel
    rw [h] at e
    simpa using e
  have hm : ∀ o ∈ outs, speeds sampleRegion o = [1, 1, 1, 1] := by
    intro o ho
    have : speeds sampleRegion o ∈ outs.map (speeds sampleRegion) := List.mem_map_of_mem ho
    rw [hs] at this
    simpa using this
  have hf : (outs.flatMap (speeds sampleRegion)).sum = 8 := by
    rw [List.flatMap_def, hs]; norm_num
  refine ⟨outs, h, ⟨by decide, by decide⟩, ?_, ?_, ?_, ?_⟩
  · intro o ho s hs; rw [hm o ho] at hs; simp at hs; subst hs; exact zero_le_one
  · intro o ho; rw [hm o ho]; norm_num
  · intro b hb; simp at hb; subst hb; decide
  · intro b hb
    simp at hb; subst hb
    rw [hf]
    decide +kernel

end Verif.Render
