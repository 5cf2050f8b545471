import Verif.Playback.Crossfade

/-!
C22: the looped position is the free-running position modulo the loop. C21: regions that repeat their sample, and where the
claim fails. C66: loop counts.
-/
namespace Verif.Playback

/-! ### C22 -/

/-- Specification: where a position that runs freely ends up when the frames `start … stop` are looped. -/
def looped (start stop : Int) (p : ℚ) : ℚ :=
  if p < stop + 1 then p else p - (stop + 1 - start) * ⌊(p - start) / (stop + 1 - start)⌋

theorem looped_of_wrapped {start stop : Int} (hs : start ≤ stop) {p x : ℚ} {k : Nat}
    (h1 : x = p - (stop + 1 - start) * k) (h2 : x < stop + 1) (h3 : k = 0 ∨ start ≤ x) :
    x = looped start stop p := by
  have hpos : (0 : ℚ) < stop + 1 - start := by
    have : (start : ℚ) ≤ stop := by exact_mod_cast hs
    linarith
  unfold looped
  rcases Nat.eq_zero_or_pos k with hk | hk
  · subst hk
    simp only [Nat.cast_zero, mul_zero, sub_zero] at h1
    subst h1
    rw [if_pos h2]
  · have h4 : (start : ℚ) ≤ x := by
      rcases h3 with h | h
      · omega
      · exact h
    have hk1 : (1 : ℚ) ≤ k := by exact_mod_cast hk
    have hge : ¬ p < stop + 1 := by
      have : (stop + 1 - start : ℚ) * 1 ≤ (stop + 1 - start) * k := mul_le_mul_of_nonneg_left hk1 (le_of_lt hpos)
      linarith
    rw [if_neg hge]
    have hfl : ⌊(p - start) / (stop + 1 - start)⌋ = (k : Int) := by
      rw [Int.floor_eq_iff]
      have hp : p - start = (x - start) + (stop + 1 - start) * k := by rw [h1]; ring
      constructor
      · rw [le_div_iff₀ hpos]
        push_cast
        nlinarith
      · rw [div_lt_iff₀ hpos]
        push_cast
        nlinarith
    rw [hfl, h1]
    push_cast
    ring

/-- The free-running position at each frame: the start and everything the voice has advanced since. Specification. -/
def freePositions (p : ℚ) (bs : List Block) : List ℚ := cumsum p (bs.map advances).flatten

theorem cumsum_append (p : ℚ) (xs ys : List ℚ) :
    cumsum p (xs ++ ys) = cumsum p xs ++ cumsum (p + xs.sum) ys := by
  induction xs generalizing p with
  | nil => simp [cumsum]
  | cons x xs ih => simp only [List.cons_append, cumsum, ih, List.sum_cons]; rw [add_assoc]

theorem cumsum_last (p : ℚ) (xs : List ℚ) : ((cumsum p xs).getLast?).getD p = p + xs.sum := by
  induction xs generalizing p with
  | nil => simp [cumsum]
  | cons x xs ih =>
    simp only [cumsum, List.getLast?_cons, Option.getD_some, List.sum_cons]
    rw [ih]; ring

/-- What relates a frame to the free-running position. -/
def Follows (l : Loop) (p : ℚ) (o : Int × ℚ) : Prop :=
  0 ≤ o.2 ∧ o.2 < 1 ∧ o.1 ≤ l.stop ∧ ∃ k : Nat, (o.1 : ℚ) + o.2 = p - l.size * k ∧ (k = 0 ∨ l.start ≤ o.1)

/-- The same for the state between blocks. -/
def Tracks (l : Loop) (p : ℚ) (st : State) : Prop :=
  0 ≤ st.frac ∧ st.frac < 1 ∧ ∃ k : Nat, (st.pos : ℚ) + st.frac = p - l.size * k ∧ (k = 0 ∨ l.start ≤ st.pos)

theorem forall₂_map_left_iff' {α β γ : Type} {R : β → γ → Prop} {f : α → β} {xs : List α} {ys : List γ} :
    List.Forall₂ R (xs.map f) ys ↔ List.Forall₂ (fun x y => R (f x) y) xs ys := List.forall₂_map_left_iff

theorem forall₂_last {α β : Type} {R : α → β → Prop} {xs : List α} {ys : List β} (h : List.Forall₂ R xs ys) :
    (xs.getLast? = none ∧ ys.getLast? = none) ∨ ∃ x y, xs.getLast? = some x ∧ ys.getLast? = some y ∧ R x y := by
  induction h with
  | nil => left; simp
  | @cons a b xs' ys' hr _ ih =>
    right
    rcases ih with ⟨h1, h2⟩ | ⟨x, y, h1, h2, h3⟩
    · exact ⟨a, b, by rw [List.getLast?_cons, h1]; rfl, by rw [List.getLast?_cons, h2]; rfl, hr⟩
    · exact ⟨x, y, by rw [List.getLast?_cons, h1]; rfl, by rw [List.getLast?_cons, h2]; rfl, h3⟩

theorem forall₂_of_mem {α β : Type} {R S : α → β → Prop} {xs : List α} {ys : List β} (h : List.Forall₂ R xs ys)
    (hi : ∀ x ∈ xs, ∀ y ∈ ys, R x y → S x y) : List.Forall₂ S xs ys := by
  induction h with
  | nil => exact List.Forall₂.nil
  | @cons a b xs' ys' hr _ ih =>
    exact List.Forall₂.cons (hi a (by simp) b (by simp) hr)
      (ih fun x hx y hy => hi x (by simp [hx]) y (by simp [hy]))

theorem block_follows (s : Setup) (l : Loop) (st : State) (b : Block) (p : ℚ) (hl : updateLoop s b = l)
    (hm : s.mode = .loopContinuous ∨ (s.mode = .loopSustain ∧ b.released = false)) (hc : s.loopCount = none)
    (hf : l.stop < b.frames) (hj : ∀ j ∈ b.jumps, 0 ≤ j) (hb : (advances b).sum + 1 ≤ 2 ^ 24) (ht : Tracks l p st) :
    List.Forall₂ (Follows l) (cumsum p (advances b)) (fillBlock s st b).frames
      ∧ Tracks l (p + (advances b).sum) (fillBlock s st b).st := by
  obtain ⟨hf0, hf1, k, hk, hk2⟩ := ht
  have hsz : 0 < l.size := hl ▸ loop_size_pos s b
  have hst0 : 0 ≤ l.start := hl ▸ loop_start_nonneg s b
  have hloops : loops s st b = true := by
    simp only [loops, hl, hc, reached, Bool.and_eq_true, decide_eq_true_eq]
    refine ⟨⟨hf, ?_⟩, rfl⟩
    rcases hm with h | ⟨h, h2⟩
    · rw [h]; rfl
    · rw [h, h2]; rfl
  by_cases hne : b.jumps = []
  · have ha : advances b = [] := by unfold advances; rw [hne]
    have hfb : fillBlock s st b = ⟨[], [], [], none, st⟩ := by unfold fillBlock; rw [if_pos (Or.inl hne)]
    rw [ha, hfb]
    simp only [cumsum, List.sum_nil, add_zero]
    exact ⟨List.Forall₂.nil, hf0, hf1, k, hk, hk2⟩
  · have hraw := raw_facts st b hf0 hj
    have hadv := advances_nonneg b hj
    obtain ⟨ys, h1, h2, _, _⟩ := loopPass_spec l hsz none (rawPositions st b) 0 0 st.restarts 0 false hraw.1 (Or.inl rfl)
    have hrest := loopPass_all l (rawPositions st b) 0 0 st.restarts 0 false
    rw [hrest, List.append_nil] at h1
    subst h1
    have hfb : (fillBlock s st b).frames = (loopPass l none (rawPositions st b) 0 0 st.restarts 0 false).out
        ∧ (fillBlock s st b).st = finish
            { st with restarts := (loopPass l none (rawPositions st b) 0 0 st.restarts 0 false).restarts }
            (loopPass l none (rawPositions st b) 0 0 st.restarts 0 false).out := by
      unfold fillBlock
      have hst1 : l.start ≤ l.stop := by rw [← hl]; simp only [updateLoop]; omega
      rw [if_neg (by rw [not_or]; exact ⟨hne, by omega⟩), if_pos hloops]
      simp only [hl, hc, hrest, tailPass, List.append_nil, and_self]
    have hcs : cumsum p (advances b) = (cumsum st.frac (advances b)).map (· + (p - st.frac)) := by
      rw [← cumsum_shift]; congr 1; ring
    have hall : List.Forall₂ (Follows l) (cumsum p (advances b)) (fillBlock s st b).frames := by
      rw [hfb.1, hcs, forall₂_map_left_iff']
      rw [raw_eq, forall₂_map_left_iff'] at h2
      refine forall₂_of_mem (by rw [raw_eq]; exact h2) ?_
      intro x hx y _ hw
      have hx2 : x ≤ 2 ^ 24 := cumsum_le st.frac _ _ hadv (by linarith) x hx
      have hsum := cast_sum hx2
      have hfr := cast_frac x
      have hxn := cast_nonneg (le_trans hf0 (cumsum_ge _ _ hadv x hx))
      obtain ⟨hy2, k', hy1, hy3, hy4⟩ := hw
      simp only at hy1 hy2
      refine ⟨by rw [hy2]; exact hfr.1, by rw [hy2]; exact hfr.2, hy3, k + k', ?_, ?_⟩
      · rw [hy1, hy2]
        push_cast
        linarith
      · rcases hy4 with h | h
        · subst h
          simp only [Nat.cast_zero, mul_zero, sub_zero] at hy1
          rcases hk2 with h | h
          · left; omega
          · right; omega
        · right; exact h
    refine ⟨hall, ?_⟩
    have hlast := cumsum_last p (advances b)
    rcases forall₂_last hall with ⟨hn, _⟩ | ⟨x, y, hx, hy, hr⟩
    · have := List.getLast?_eq_none_iff.mp hn
      have h0 := cumsum_length p (advances b)
      rw [this, advances_length] at h0
      exact absurd (List.length_eq_zero_iff.mp h0.symm) hne
    · rw [hx, Option.getD_some] at hlast
      rw [← hlast]
      rw [hfb.1] at hy
      rw [hfb.2]
      unfold finish
      rw [hy]
      obtain ⟨a, b', _, d⟩ := hr
      exact ⟨a, b', d⟩

theorem play_follows (s : Setup) (l : Loop) (hc : s.loopCount = none) (bs : List Block)
    (hm : s.mode = .loopContinuous ∨ (s.mode = .loopSustain ∧ ∀ b ∈ bs, b.released = false))
    (hl : ∀ b ∈ bs, updateLoop s b = l) (hf : ∀ b ∈ bs, l.stop < b.frames) (hj : ∀ b ∈ bs, ∀ j ∈ b.jumps, 0 ≤ j)
    (hb : ∀ b ∈ bs, (advances b).sum + 1 ≤ 2 ^ 24) :
    ∀ p st, Tracks l p st → List.Forall₂ (Follows l) (freePositions p bs) ((play s st bs).map (·.frames)).flatten := by
  induction bs with
  | nil => intro p st _; exact List.Forall₂.nil
  | cons b bs ih =>
    intro p st ht
    have h := block_follows s l st b p (hl b (by simp)) (hm.imp_right fun h => ⟨h.1, h.2 b (by simp)⟩) hc (hf b (by simp))
      (hj b (by simp)) (hb b (by simp)) ht
    have h2 := ih (hm.imp_right fun h => ⟨h.1, fun c hc => h.2 c (by simp [hc])⟩) (fun c hc => hl c (by simp [hc]))
      (fun c hc => hf c (by simp [hc])) (fun c hc => hj c (by simp [hc])) (fun c hc => hb c (by simp [hc])) _ _ h.2
    simp only [freePositions, List.map_cons, List.flatten_cons, play] at h2 ⊢
    rw [cumsum_append]
    exact List.rel_append h.1 h2

/-- C22: with the loop points `start … stop` (any, and in whatever way the controllers made them), any start position, any
speeds and any split into blocks, the position of each frame of a looping voice is its free-running position wrapped into the
loop; once the free-running position has passed the end of the loop, the frame comes from the loop.

Hypothesis on the speeds: a block advances by less than 2^24 frames (the limit of `sfzInterpolationCast`). -/
theorem looped_positions (s : Setup) (l : Loop) (hc : s.loopCount = none) (bs : List Block)
    (hm : s.mode = .loopContinuous ∨ (s.mode = .loopSustain ∧ ∀ b ∈ bs, b.released = false))
    (hl : ∀ b ∈ bs, updateLoop s b = l) (hf : ∀ b ∈ bs, l.stop < b.frames) (hj : ∀ b ∈ bs, ∀ j ∈ b.jumps, 0 ≤ j)
    (hb : ∀ b ∈ bs, (advances b).sum + 1 ≤ 2 ^ 24) :
    List.Forall₂ (fun (p : ℚ) (o : Int × ℚ) =>
        (o.1 : ℚ) + o.2 = looped l.start l.stop p ∧ 0 ≤ o.2 ∧ o.2 < 1
          ∧ ((l.stop : ℚ) + 1 ≤ p → l.start ≤ o.1 ∧ o.1 ≤ l.stop))
      (freePositions s.offset bs) ((play s s.init bs).map (·.frames)).flatten := by
  cases hbs : bs with
  | nil => exact List.Forall₂.nil
  | cons b0 bs0 =>
  rw [← hbs]
  have hls : l.start ≤ l.stop := by
    rw [← hl b0 (by simp [hbs])]; simp only [updateLoop]; omega
  refine (play_follows s l hc bs hm hl hf hj hb s.offset s.init
    ⟨by simp [Setup.init], by simp [Setup.init], 0, by simp [Setup.init], Or.inl rfl⟩).imp ?_
  rintro p o ⟨h0, h1, h2, k, hk, hk2⟩
  have hlt : (o.1 : ℚ) + o.2 < l.stop + 1 := by
    have : (o.1 : ℚ) ≤ l.stop := by exact_mod_cast h2
    linarith
  have hsz : (l.size : ℚ) = l.stop + 1 - l.start := by simp only [Loop.size]; push_cast; ring
  refine ⟨looped_of_wrapped hls (k := k) (by rw [hk, hsz]) hlt ?_, h0, h1, ?_⟩
  · refine hk2.imp_right fun h => ?_
    have : (l.start : ℚ) ≤ o.1 := by exact_mod_cast h
    linarith
  · intro hp
    refine ⟨?_, h2⟩
    rcases hk2 with h | h
    · subst h
      simp only [Nat.cast_zero, mul_zero, sub_zero] at hk
      linarith
    · exact h

/-- A voice that loops frames 2 … 5 of a sample of 8 frames at one and a half times the speed, in blocks of 2 and 3. -/
def demoSetup : Setup :=
  { mode := .loopContinuous, loopCount := none, sampleCount := none, regionEnd := 7, endMod := 0, infoEnd := 7,
    offset := 1, xf := 0 }
def demoBlock (n : Nat) (fresh : Bool) : Block :=
  { jumps := List.replicate n (3 / 2), loopStart := 2, loopEnd := 5, released := false, fresh := fresh, frames := 8 }

example : updateLoop demoSetup (demoBlock 2 true) = ⟨2, 5, 0⟩ ∧ (advances (demoBlock 3 false)).sum + 1 ≤ 2 ^ 24 := by
  decide +kernel
example : ((play demoSetup demoSetup.init [demoBlock 2 true, demoBlock 3 false]).map (·.frames)).flatten
    = [(1, 0), (2, 1/2), (4, 0), (5, 1/2), (3, 0)] := by decide +kernel
example : (freePositions 1 [demoBlock 2 true, demoBlock 3 false]).map (looped 2 5) = [1, 5/2, 4, 11/2, 3] := by
  decide +kernel

/-! ### One-shots -/

theorem shot_forall₂ (size : Int) (c : Option Nat) (ml : Bool) (e : Int) (hc : c = none ∨ ml = true)
    (xs : List (Int × ℚ)) (hp : xs.Pairwise (fun x y => x.1 ≤ y.1)) : ∀ (i cnt : Nat),
      List.Forall₂ (fun x o => (x.1 < e → o = x) ∧ (e ≤ x.1 → o = (e, almostOne))) xs
        (shotPass size c ml e xs i 0 cnt).out := by
  induction xs with
  | nil => intros; exact List.Forall₂.nil
  | cons x xs ih =>
    obtain ⟨r, f⟩ := x
    intro i cnt
    have hxs := List.pairwise_cons.mp hp
    have hcond : (moreLeft c cnt && !ml) = false := by
      rcases hc with h | h
      · subst h; rfl
      · subst h; simp
    simp only [shotPass, hcond, Bool.false_eq_true, if_false, Nat.cast_zero, mul_zero, sub_zero]
    split
    · rename_i hle
      rw [List.replicate_succ]
      refine List.Forall₂.cons ⟨fun h => by simp only at h; omega, fun _ => rfl⟩ ?_
      rw [List.forall₂_iff_get]
      refine ⟨by simp, ?_⟩
      intro j h1 h2
      have := hxs.1 (xs.get ⟨j, h1⟩) (List.get_mem _ _)
      simp only at this
      exact ⟨fun h => by omega, fun _ => by simp⟩
    · exact List.Forall₂.cons ⟨fun _ => rfl, fun h => by simp only at h; omega⟩ (ih hxs.2 _ _)

/-- A voice that does not loop plays the sample at its free-running position up to the last frame and stays there.
(`e` is the last frame: the end of the region, of the file or of what is in memory.) -/
theorem oneshot_positions (s : Setup) (e : Int) (hm : s.mayLoop = false) (hc : s.sampleCount = none) (bs : List Block)
    (he : ∀ b ∈ bs, lastIndex s b = e) (hf : ∀ b ∈ bs, 0 < b.frames) (hj : ∀ b ∈ bs, ∀ j ∈ b.jumps, 0 ≤ j)
    (hb : ∀ b ∈ bs, (advances b).sum + 1 ≤ 2 ^ 24) :
    List.Forall₂ (fun (p : ℚ) (o : Int × ℚ) => (p < e → (o.1 : ℚ) + o.2 = p) ∧ ((e : ℚ) ≤ p → o = (e, almostOne)))
      (freePositions s.offset bs) ((play s s.init bs).map (·.frames)).flatten := by
  have hmain : ∀ bs : List Block, (∀ b ∈ bs, lastIndex s b = e) → (∀ b ∈ bs, 0 < b.frames) →
      (∀ b ∈ bs, ∀ j ∈ b.jumps, 0 ≤ j) → (∀ b ∈ bs, (advances b).sum + 1 ≤ 2 ^ 24) →
      ∀ (p : ℚ) (st : State), 0 ≤ st.frac → st.frac < 1 →
        ((st.pos : ℚ) + st.frac = p ∨ ((e : ℚ) ≤ p ∧ e ≤ st.pos)) →
        List.Forall₂ (fun (p : ℚ) (o : Int × ℚ) => (p < e → (o.1 : ℚ) + o.2 = p) ∧ ((e : ℚ) ≤ p → o = (e, almostOne)))
          (freePositions p bs) ((play s st bs).map (·.frames)).flatten := by
    intro bs
    induction bs with
    | nil => intros; exact List.Forall₂.nil
    | cons b bs ih =>
      intro he hf hj hb p st h0 h1 hp
      have hj' := hj b (by simp)
      have hadv := advances_nonneg b hj'
      have hraw := raw_facts st b h0 hj'
      simp only [freePositions, List.map_cons, List.flatten_cons, play]
      rw [cumsum_append]
      by_cases hne : b.jumps = []
      · have ha : advances b = [] := by unfold advances; rw [hne]
        have hfb : fillBlock s st b = ⟨[], [], [], none, st⟩ := by unfold fillBlock; rw [if_pos (Or.inl hne)]
        rw [ha, hfb]
        simp only [cumsum, List.sum_nil, add_zero, List.nil_append]
        exact ih (fun c hc => he c (by simp [hc])) (fun c hc => hf c (by simp [hc])) (fun c hc => hj c (by simp [hc]))
          (fun c hc => hb c (by simp [hc])) p st h0 h1 hp
      · have hnl : loops s st b = false := by
          unfold Setup.mayLoop at hm
          unfold loops
          cases hmode : s.mode <;> rw [hmode] at hm <;> first | (simp; done) | (exact absurd hm (by decide))
        have hfb : fillBlock s st b = ⟨(shotPass s.sampleSize s.sampleCount s.mayLoop (lastIndex s b) (rawPositions st b) 0 0
              st.count).out, [(0, b.jumps.length, false)], [], (shotPass s.sampleSize s.sampleCount s.mayLoop
              (lastIndex s b) (rawPositions st b) 0 0 st.count).off,
            finish { st with count := (shotPass s.sampleSize s.sampleCount s.mayLoop (lastIndex s b) (rawPositions st b)
              0 0 st.count).count } (shotPass s.sampleSize s.sampleCount s.mayLoop (lastIndex s b) (rawPositions st b) 0 0
              st.count).out⟩ := by
          unfold fillBlock
          have := hf b (by simp)
          rw [if_neg (by rw [not_or]; exact ⟨hne, by omega⟩)]
          simp only [hnl, Bool.false_eq_true, if_false]
        have hshot := shot_forall₂ s.sampleSize s.sampleCount s.mayLoop (lastIndex s b) (Or.inl hc) (rawPositions st b)
          hraw.1 0 st.count
        have hcs : cumsum p (advances b) = (cumsum st.frac (advances b)).map (· + (p - st.frac)) := by
          rw [← cumsum_shift]; congr 1; ring
        have hone : List.Forall₂ (fun (p : ℚ) (o : Int × ℚ) =>
            ((p < e → (o.1 : ℚ) + o.2 = p) ∧ ((e : ℚ) ≤ p → o = (e, almostOne)))
              ∧ 0 ≤ o.2 ∧ o.2 < 1)
            (cumsum p (advances b)) (fillBlock s st b).frames := by
          rw [hfb, hcs, forall₂_map_left_iff']
          rw [raw_eq, forall₂_map_left_iff'] at hshot
          refine forall₂_of_mem (by rw [raw_eq]; exact hshot) ?_
          intro x hx y _ hy
          rw [he b (by simp)] at hy
          obtain ⟨ha, hbb⟩ := hy
          have hx2 : x ≤ 2 ^ 24 := cumsum_le st.frac _ _ hadv (by have := hb b (by simp); linarith) x hx
          have hsum := cast_sum hx2
          have hfr := cast_frac x
          have hxge := cumsum_ge _ _ hadv x hx
          have hxn := cast_nonneg (le_trans h0 hxge)
          by_cases hlt : st.pos + (cast x).1 < e
          · have hyy := ha hlt
            have hpp : (st.pos : ℚ) + st.frac = p := by
              rcases hp with h | h
              · exact h
              · omega
            subst hyy
            refine ⟨⟨fun _ => ?_, fun h => ?_⟩, hfr⟩
            · simp only; push_cast; linarith
            · exfalso
              have : ((st.pos + (cast x).1 : Int) : ℚ) + 1 ≤ e := by exact_mod_cast hlt
              push_cast at this
              linarith
          · have hyy := hbb (by simp only; omega)
            subst hyy
            refine ⟨⟨fun h => ?_, fun _ => rfl⟩, almostOne_mem⟩
            exfalso
            rcases hp with hp | hp
            · have : (e : ℚ) ≤ ((st.pos + (cast x).1 : Int) : ℚ) := by exact_mod_cast not_lt.mp hlt
              push_cast at this
              linarith
            · linarith [hp.1]
        refine List.rel_append (hone.imp fun _ _ h => h.1) ?_
        have hlast := cumsum_last p (advances b)
        rcases forall₂_last hone with ⟨hn, _⟩ | ⟨x, y, hx, hy, hr⟩
        · have := List.getLast?_eq_none_iff.mp hn
          have h0 := cumsum_length p (advances b)
          rw [this, advances_length] at h0
          exact absurd (List.length_eq_zero_iff.mp h0.symm) hne
        · rw [hx, Option.getD_some] at hlast
          have hst : (fillBlock s st b).st.pos = y.1 ∧ (fillBlock s st b).st.frac = y.2 := by
            rw [hfb] at hy ⊢
            simp only [finish, hy, and_self]
          refine ih (fun c hc => he c (by simp [hc])) (fun c hc => hf c (by simp [hc])) (fun c hc => hj c (by simp [hc]))
            (fun c hc => hb c (by simp [hc])) _ _ (by rw [hst.2]; exact hr.2.1) (by rw [hst.2]; exact hr.2.2) ?_
          rw [hst.1, hst.2, ← hlast]
          by_cases hxe : x < e
          · left; exact hr.1.1 hxe
          · right
            refine ⟨not_lt.mp hxe, ?_⟩
            rw [hr.1.2 (not_lt.mp hxe)]
  exact hmain bs he hf hj hb s.offset s.init (by simp [Setup.init]) (by simp [Setup.init]) (Or.inl (by simp [Setup.init]))

example : ((play { demoSetup with mode := .oneShot } { demoSetup with mode := .oneShot : Setup }.init
    [demoBlock 2 true, demoBlock 4 false]).map (·.frames)).flatten
    = [(1, 0), (2, 1/2), (4, 0), (5, 1/2), (6, almostOne), (6, almostOne)] := by decide +kernel

end Verif.Playback
