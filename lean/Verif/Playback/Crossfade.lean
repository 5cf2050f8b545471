import Verif.Playback.Props

/-! C21: the frames read to fade in what precedes the loop, and the partition of a block. -/
namespace Verif.Playback

/-! ### Partitions -/

/-- The type of the partition a frame is in. -/
def typeAt (t : Bool) : List (Nat × Bool) → Nat → Bool
  | [], _ => t
  | p :: ps, k => typeAt (if p.1 ≤ k then p.2 else t) ps k

theorem typeAt_before (t : Bool) (ps : List (Nat × Bool)) (k : Nat) (h : ∀ p ∈ ps, k < p.1) : typeAt t ps k = t := by
  induction ps generalizing t with
  | nil => rfl
  | cons p ps ih =>
    have hp := h p (by simp)
    rw [typeAt, if_neg (by omega)]
    exact ih t (fun q hq => h q (by simp [hq]))

/-- What the partitions of the looping pass look like. -/
structure Parts (l : Loop) (p : Pass) (i : Nat) (t : Bool) : Prop where
  range : ∀ q ∈ p.parts, i ≤ q.1 ∧ q.1 < i + p.out.length
  sorted : p.parts.Pairwise (fun a b => a.1 < b.1)
  types : ∀ j o, p.out[j]? = some o → typeAt t p.parts (i + j) = xfading l o.1
  after : ∀ k, i + p.out.length ≤ k → ∀ o, p.out.getLast? = some o → typeAt t p.parts k = xfading l o.1

theorem loopPass_parts (l : Loop) (c : Option Nat) (xs : List (Int × ℚ)) :
    ∀ (i br rs : Nat) (oi : Int) (ot : Bool), Parts l (loopPass l c xs i br rs oi ot) i ot := by
  induction xs with
  | nil => intro i br rs oi ot; exact ⟨by simp [loopPass], by simp [loopPass], by simp [loopPass], by simp [loopPass]⟩
  | cons x xs ih =>
    obtain ⟨r, f⟩ := x
    intro i br rs oi ot
    generalize hwn : wrapIndex l (r - l.size * br) 0 = wn
    have hhere : ∀ q ∈ (if (i == 0 || decide (wn.1 < oi) || xfading l wn.1 != ot) then [(i, xfading l wn.1)] else []),
        q = (i, xfading l wn.1) := by
      intro q hq; split at hq <;> simpa using hq
    have hty : ∀ ps k, i ≤ k → typeAt ot ((if (i == 0 || decide (wn.1 < oi) || xfading l wn.1 != ot) then
        [(i, xfading l wn.1)] else []) ++ ps) k = typeAt (xfading l wn.1) ps k := by
      intro ps k hk
      split
      · simp only [List.cons_append, List.nil_append, typeAt, if_pos hk]
      · rename_i h
        simp only [Bool.or_eq_true, bne_iff_ne, ne_eq, not_or, not_not] at h
        rw [List.nil_append, h.2]
    simp only [loopPass, hwn]
    split
    · refine ⟨?_, ?_, ?_, ?_⟩
      · intro q hq; rw [hhere q hq]; simp
      · split <;> simp
      · intro j o ho
        cases j with
        | zero =>
          simp only [List.getElem?_cons_zero, Option.some.injEq] at ho
          subst ho
          have := hty [] (i + 0) (by omega)
          rw [List.append_nil] at this
          exact this
        | succ j => simp at ho
      · intro k hk o ho
        simp only [List.getLast?_singleton, Option.some.injEq] at ho
        subst ho
        have := hty [] k (by simp only [List.length_singleton] at hk; omega)
        rw [List.append_nil] at this
        exact this
    · have h := ih (i + 1) (br + wn.2) (rs + wn.2) wn.1 (xfading l wn.1)
      generalize loopPass l c xs (i + 1) (br + wn.2) (rs + wn.2) wn.1 (xfading l wn.1) = p at h
      refine ⟨?_, ?_, ?_, ?_⟩
      · intro q hq
        simp only [List.mem_append] at hq
        rcases hq with hq | hq
        · rw [hhere q hq]; simp
        · have := h.range q hq; simp only [List.length_cons]; omega
      · simp only [List.pairwise_append]
        refine ⟨by split <;> simp, h.sorted, ?_⟩
        intro a ha b hb
        rw [hhere a ha]
        have := h.range b hb
        simp only; omega
      · intro j o ho
        simp only
        rw [hty _ _ (by omega)]
        cases j with
        | zero =>
          simp only [List.getElem?_cons_zero, Option.some.injEq] at ho
          subst ho
          exact typeAt_before _ _ _ (fun q hq => by have := h.range q hq; omega)
        | succ j =>
          simp only [List.getElem?_cons_succ] at ho
          have := h.types j o ho
          rw [show i + (j + 1) = i + 1 + j by omega]
          exact this
      · intro k hk o ho
        simp only [List.length_cons] at hk ⊢
        rw [hty _ _ (by omega)]
        rw [List.getLast?_cons] at ho
        simp only [Option.some.injEq] at ho
        cases hl : p.out.getLast? with
        | none =>
          rw [hl] at ho
          simp only [Option.getD_none] at ho
          subst ho
          have hnil := List.getLast?_eq_none_iff.mp hl
          exact typeAt_before _ _ _ (fun q hq => by have := h.range q hq; rw [hnil, List.length_nil] at this; omega)
        | some o' =>
          rw [hl] at ho
          simp only [Option.getD_some] at ho
          subst ho
          exact h.after k (by omega) _ hl

theorem partSizes_type (ps : List (Nat × Bool)) (n : Nat) (hs : ps.Pairwise (fun a b => a.1 < b.1)) :
    ∀ t0, ∀ q ∈ partSizes ps n, ∀ k, q.1 ≤ k → k < q.1 + q.2.1 → typeAt t0 ps k = q.2.2 := by
  fun_induction partSizes ps n with
  | case1 => simp
  | case2 s t n => intro t0 q hq k h1 _; simp at hq; subst hq; simp only at h1; simp [typeAt, h1]
  | case3 s t s' t' ps n ih =>
    intro t0 q hq k h1 h2
    have hp := List.pairwise_cons.mp hs
    have hlt := hp.1 (s', t') (by simp)
    simp only [List.mem_cons] at hq
    rw [typeAt]
    rcases hq with rfl | hq
    · simp only at h1 h2 hlt
      rw [if_pos h1]
      apply typeAt_before
      intro p hp'
      simp only [List.mem_cons] at hp'
      rcases hp' with rfl | hp'
      · simp only; omega
      · have := (List.pairwise_cons.mp hp.2).1 p hp'
        simp only at this; omega
    · exact ih hp.2 _ q hq k h1 h2

theorem slice_mem {α : Type} (xs : List α) (s n : Nat) {x : α} (h : x ∈ slice xs s n) :
    ∃ k, s ≤ k ∧ k < s + n ∧ xs[k]? = some x := by
  unfold slice at h
  obtain ⟨j, hj⟩ := List.mem_iff_getElem?.mp h
  rw [List.getElem?_take] at hj
  split at hj
  · rename_i hlt
    rw [List.getElem?_drop] at hj
    exact ⟨s + j, by omega, by omega, hj⟩
  · simp at hj

theorem slices_tile {α : Type} (xs : List α) (ps : List (Nat × Bool)) (n : Nat)
    (hs : ps.Pairwise (fun a b => a.1 < b.1)) (hn : ∀ p ∈ ps, p.1 ≤ n) :
    ∀ p, ps.head? = some p → ((partSizes ps n).map fun q => slice xs q.1 q.2.1).flatten = (xs.drop p.1).take (n - p.1) := by
  fun_induction partSizes ps n with
  | case1 => simp
  | case2 s t n => intro p hp; simp at hp; subst hp; simp [slice]
  | case3 s t s' t' ps n ih =>
    intro p hp
    simp only [List.head?_cons, Option.some.injEq] at hp
    subst hp
    have hpw := List.pairwise_cons.mp hs
    have hlt := hpw.1 (s', t') (by simp)
    have hle := hn (s', t') (by simp)
    have := ih hpw.2 (fun q hq => hn q (by simp only [List.mem_cons] at hq ⊢; right; exact hq)) (s', t') rfl
    simp only at hlt hle this ⊢
    rw [List.map_cons, List.flatten_cons, this]
    unfold slice
    have h1 : xs.drop s' = (xs.drop s).drop (s' - s) := by rw [List.drop_drop]; congr 1; omega
    rw [h1, show n - s = (s' - s) + (n - s') by omega]
    exact (List.take_add).symm

/-- Each output frame is rendered exactly once, in order: the partitions of the block follow each other without gap or
overlap. -/
theorem partitions_tile (s : Setup) (st : State) (b : Block) (hne : b.jumps ≠ []) (hf : b.frames ≠ 0) :
    (((fillBlock s st b).parts).map fun q => slice (fillBlock s st b).frames q.1 q.2.1).flatten
        = (fillBlock s st b).frames
      ∧ (fillBlock s st b).frames.length = b.jumps.length := by
  have hrl := raw_length st b
  unfold fillBlock
  rw [if_neg (by simp [hne, hf])]
  split
  · have hlen : ((loopPass (updateLoop s b) s.loopCount (rawPositions st b) 0 0 st.restarts 0 false).out
        ++ tailPass (updateLoop s b)
          (loopPass (updateLoop s b) s.loopCount (rawPositions st b) 0 0 st.restarts 0 false).blockRestarts (lastIndex s b)
          (loopPass (updateLoop s b) s.loopCount (rawPositions st b) 0 0 st.restarts 0 false).rest).length
        = b.jumps.length := by
      rw [List.length_append, tail_length, ← hrl]
      have : ∀ (c : Option Nat) (l : Loop) (xs : List (Int × ℚ)) (i br rs : Nat) (oi : Int) (ot : Bool),
          (loopPass l c xs i br rs oi ot).out.length + (loopPass l c xs i br rs oi ot).rest.length = xs.length := by
        intro c l xs
        induction xs with
        | nil => intros; rfl
        | cons x xs ih =>
          obtain ⟨r, f⟩ := x
          intro i br rs oi ot
          simp only [loopPass]
          split
          · simp; omega
          · have := ih (i + 1) (br + (wrapIndex l (r - l.size * br) 0).2) (rs + (wrapIndex l (r - l.size * br) 0).2)
              (wrapIndex l (r - l.size * br) 0).1 (xfading l (wrapIndex l (r - l.size * br) 0).1)
            simp only [List.length_cons]; omega
      exact this _ _ _ _ _ _ _ _
    refine ⟨?_, hlen⟩
    dsimp only
    have hP := loopPass_parts (updateLoop s b) s.loopCount (rawPositions st b) 0 0 st.restarts 0 false
    have hhead : ∃ t, (loopPass (updateLoop s b) s.loopCount (rawPositions st b) 0 0 st.restarts 0 false).parts.head?
        = some (0, t) := by
      cases hraw : rawPositions st b with
      | nil => rw [hraw, List.length_nil] at hrl; exact absurd (List.length_eq_zero_iff.mp hrl.symm) hne
      | cons x xs =>
        obtain ⟨r, f⟩ := x
        simp only [loopPass, beq_self_eq_true, Bool.true_or, if_true]
        split
        · exact ⟨_, rfl⟩
        · exact ⟨_, rfl⟩
    obtain ⟨t, ht⟩ := hhead
    have htile := slices_tile ((loopPass (updateLoop s b) s.loopCount (rawPositions st b) 0 0 st.restarts 0 false).out
        ++ tailPass (updateLoop s b)
          (loopPass (updateLoop s b) s.loopCount (rawPositions st b) 0 0 st.restarts 0 false).blockRestarts (lastIndex s b)
          (loopPass (updateLoop s b) s.loopCount (rawPositions st b) 0 0 st.restarts 0 false).rest)
      _ b.jumps.length hP.sorted (fun p hp => by
        have := (hP.range p hp).2
        rw [List.length_append] at hlen
        omega) _ ht
    rw [htile]
    simp only [List.drop_zero, Nat.sub_zero]
    exact List.take_of_length_le (by rw [hlen])
  · refine ⟨?_, by rw [shot_length, hrl]⟩
    simp only [List.map_cons, List.map_nil, List.flatten_cons, List.flatten_nil, List.append_nil, slice, List.drop_zero]
    exact List.take_of_length_le (by rw [shot_length, hrl])

/-! ### Frames read for the crossfade -/

theorem block_crossfade (s : Setup) (st : State) (b : Block) (hf : 0 ≤ st.frac)
    (hj : ∀ j ∈ b.jumps, 0 ≤ j) (hfr : 0 ≤ b.frames)
    (hcount : s.loopCount = none ∨ (updateLoop s b).stop ≤ lastIndex s b + 1) :
    ∀ i ∈ (fillBlock s st b).xfReads, -2 ≤ i ∧ i < b.frames := by
  have hraw := raw_facts st b hf hj
  unfold fillBlock
  split
  · simp
  · rename_i hne
    have hfr : 0 < b.frames := by have : b.frames ≠ 0 := fun h => hne (Or.inr h); omega
    split
    · rename_i hloop
      have hsz := loop_size_pos s b
      have hst0 := loop_start_nonneg s b
      have hxf := loop_xf_le s b
      have hstop : (updateLoop s b).stop < b.frames := by
        simp only [loops, Bool.and_eq_true, decide_eq_true_eq] at hloop; exact hloop.1.1
      obtain ⟨ys, h1, h2, h3, h4⟩ := loopPass_spec (updateLoop s b) hsz s.loopCount (rawPositions st b) 0 0 st.restarts
        0 false hraw.1 (Or.inl rfl)
      have hP := loopPass_parts (updateLoop s b) s.loopCount (rawPositions st b) 0 0 st.restarts 0 false
      have hnorest : s.loopCount = none →
          (loopPass (updateLoop s b) s.loopCount (rawPositions st b) 0 0 st.restarts 0 false).rest = [] := by
        intro h; rw [h]; exact loopPass_all _ _ _ _ _ _ _
      have hlast : lastIndex s b < b.frames := by unfold lastIndex; omega
      dsimp only
      generalize loopPass (updateLoop s b) s.loopCount (rawPositions st b) 0 0 st.restarts 0 false = p at *
      generalize updateLoop s b = l at *
      intro i hi
      obtain ⟨q, hq, hiq⟩ := List.mem_flatten.mp hi
      obtain ⟨pt, hpt, rfl⟩ := List.mem_map.mp hq
      unfold xfIn at hiq
      split at hiq
      · rename_i hty
        obtain ⟨x, hx, rfl⟩ := List.mem_map.mp ((List.dropWhile_sublist _).subset hiq)
        obtain ⟨k, hk1, hk2, hk3⟩ := slice_mem _ _ _ hx
        have htyk := partSizes_type _ _ hP.sorted false pt hpt k hk1 hk2
        rw [hty] at htyk
        have hxfs : l.xfOutStart - l.xfInStart = l.size := by simp only [Loop.xfOutStart, Loop.xfInStart, Loop.size]; omega
        have hxfo : l.xfOutStart - l.size = l.start - l.xfSize := by simp only [Loop.xfOutStart, Loop.size]; omega
        rw [hxfs]
        by_cases hlt : k < p.out.length
        · rw [List.getElem?_append_left hlt] at hk3
          have := hP.types k x hk3
          rw [Nat.zero_add] at this
          rw [this] at htyk
          simp only [xfading, Bool.and_eq_true, decide_eq_true_eq] at htyk
          obtain ⟨y, hy, hw⟩ := Forall₂.exists_left h2 x (List.mem_of_getElem? hk3)
          obtain ⟨_, _, _, hle, _⟩ := hw
          constructor <;> omega
        · rw [List.getElem?_append_right (by omega)] at hk3
          have hmem := List.mem_of_getElem? hk3
          have hrest : p.rest ≠ [] := by
            intro h; rw [h] at hmem; simp [tailPass] at hmem
          have hc : l.stop ≤ lastIndex s b + 1 := by
            rcases hcount with h | h
            · exact absurd (hnorest h) hrest
            · exact h
          cases hgl : p.out.getLast? with
          | none =>
            have hx0 := h4 (List.getLast?_eq_none_iff.mp hgl)
            rw [hx0] at h1
            exact absurd (List.append_eq_nil_iff.mp h1.symm).2 hrest
          | some o =>
            have hta := hP.after k (by omega) o hgl
            rw [hta] at htyk
            simp only [xfading, Bool.and_eq_true, decide_eq_true_eq] at htyk
            rcases tail_mem _ _ _ _ x hmem with h | ⟨hlt2, y, hy, _, hxi⟩
            · subst h
              simp only
              simp only [Loop.size] at *
              constructor <;> omega
            · have := h3 y hy o hgl
              constructor <;> omega
      · simp at hiq
    · simp

/-- C21: the frames read to fade in what precedes the loop are in the sample (up to two frames into the padding), whatever the
loop points and the crossfade length.

`_partial`: for regions without loop count, or whose end (with its controller modulations) is not before the
end of the loop; see `crossfade_violated`. -/
theorem crossfade_inside_partial (s : Setup) (hc : ¬ repeats s) (h0 : 0 ≤ s.offset) (hi : 0 ≤ s.infoEnd)
    (bs : List Block) (hj : ∀ b ∈ bs, ∀ j ∈ b.jumps, 0 ≤ j) (hfr : ∀ b ∈ bs, 0 ≤ b.frames)
    (hcount : s.loopCount = none ∨ ∀ b ∈ bs, (updateLoop s b).stop ≤ lastIndex s b + 1) :
    ∀ p ∈ bs.zip (play s s.init bs), ∀ i ∈ p.2.xfReads, ∀ k, Reach k →
      -padding ≤ i + k ∧ i + k < p.1.frames + padding := by
  have hmain : ∀ bs : List Block, (∀ b ∈ bs, ∀ j ∈ b.jumps, 0 ≤ j) → (∀ b ∈ bs, 0 ≤ b.frames) →
      (s.loopCount = none ∨ ∀ b ∈ bs, (updateLoop s b).stop ≤ lastIndex s b + 1) →
      ∀ st, Ok (-1) st → ∀ p ∈ bs.zip (play s st bs), ∀ i ∈ p.2.xfReads, -2 ≤ i ∧ i < p.1.frames := by
    intro bs
    induction bs with
    | nil => simp
    | cons b bs ih =>
      intro hj hfr hcount st hst p hp i hi'
      simp only [play, List.zip_cons_cons, List.mem_cons] at hp
      rcases hp with rfl | hp
      · exact block_crossfade s st b hst.2.1 (hj b (by simp)) (hfr b (by simp))
          (hcount.imp_right fun h => h b (by simp)) i hi'
      · have hb := block_inside s st b (-1) (by omega) hst (hj b (by simp)) hc
          (fun hf => by simp only [lastIndex, Setup.sampleEnd_, clampI]; omega) (hfr b (by simp))
        exact ih (fun c hc => hj c (by simp [hc])) (fun c hc => hfr c (by simp [hc]))
          (hcount.imp_right fun h c hc => h c (by simp [hc])) _ hb.2 p hp i hi'
  intro p hp i hi' k hk
  have := hmain bs hj hfr hcount s.init
    ⟨by simp only [Setup.init]; omega, by simp [Setup.init], by simp [Setup.init]⟩ p hp i hi'
  unfold Reach at hk
  unfold padding
  omega

end Verif.Playback
