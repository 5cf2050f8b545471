import Verif.Playback.Loops

/-! C21 for regions that repeat their sample (`count=`), where C21 fails, and C66: loop counts. -/
namespace Verif.Playback

/-! ### Repeated samples -/

/-- Indices that advance by at most `d` from one to the next, starting at `p`. -/
def Steps (d : Int) : Int → List (Int × ℚ) → Prop
  | _, [] => True
  | p, x :: xs => p ≤ x.1 ∧ x.1 ≤ p + d ∧ Steps d x.1 xs

theorem cast_step {a j : ℚ} {d : Int} (hj : j ≤ d) (hd : 0 ≤ d) : (cast (a + j)).1 ≤ (cast a).1 + d := by
  simp only [cast]
  rw [← Int.floor_add_intCast]
  apply Int.floor_le_floor
  have hd' : (0 : ℚ) ≤ d := by exact_mod_cast hd
  rcases le_total (2 ^ 24) a with h | h
  · rw [min_eq_left h]
    have := min_le_left (2 ^ 24 : ℚ) (a + j)
    linarith
  · rw [min_eq_right h]
    have := min_le_right (2 ^ 24 : ℚ) (a + j)
    linarith

theorem raw_steps (pos : Int) (d : Int) (hd : 0 ≤ d) (js : List ℚ) (hj : ∀ j ∈ js, 0 ≤ j ∧ j ≤ d) :
    ∀ a, Steps d (pos + (cast a).1) ((cumsum a js).map fun x => (pos + (cast x).1, (cast x).2)) := by
  induction js with
  | nil => intro a; trivial
  | cons j js ih =>
    intro a
    have h := hj j (by simp)
    refine ⟨?_, ?_, ih (fun k hk => hj k (by simp [hk])) (a + j)⟩
    · have := cast_mono (show a ≤ a + j by linarith); simp only; omega
    · have := cast_step (a := a) h.2 hd; simp only; omega

theorem shot_count_mem (size : Int) (c : Option Nat) (ml : Bool) (e lo : Int) (hsz : e - size = lo) (hle : lo ≤ e)
    (xs : List (Int × ℚ)) : ∀ (p : Int) (i br cnt : Nat), Steps size p xs → lo ≤ p - size * br → p - size * br ≤ e →
      ∀ o ∈ (shotPass size c ml e xs i br cnt).out, lo ≤ o.1 ∧ o.1 ≤ e := by
  induction xs with
  | nil => simp [shotPass]
  | cons x xs ih =>
    obtain ⟨r, f⟩ := x
    intro p i br cnt hs h1 h2 o ho
    obtain ⟨ha, hb, hs'⟩ := hs
    simp only at ha hb hs'
    simp only [shotPass] at ho
    have e1 : r - size * ((br + 1 : Nat) : Int) = r - size * br - size := by push_cast; ring
    split at ho
    · split at ho
      · simp only [List.mem_cons] at ho
        rcases ho with rfl | ho
        · simp only; omega
        · exact ih r _ (br + 1) _ hs' (by rw [e1]; omega) (by rw [e1]; omega) o ho
      · rw [List.eq_of_mem_replicate ho]; exact ⟨hle, le_refl _⟩
    · simp only [List.mem_cons] at ho
      rcases ho with rfl | ho
      · simp only; omega
      · exact ih r _ br _ hs' (by omega) (by omega) o ho

/-- C21 for regions that repeat their sample: the frames played are in the sample if the part to be played is in
memory as a whole, lies after the start offset and no speed skips it as a whole.

`_partial`: each of the hypotheses is needed (`count_streaming_violated`, `count_offset_violated`,
`count_fast_violated`). -/
theorem count_inside_partial (s : Setup) (hm : s.mayLoop = false) (h0 : 0 ≤ s.offset) (hsz : 1 ≤ s.sampleSize)
    (hi : s.sampleEnd_ ≤ s.infoEnd) (bs : List Block) (hfr : ∀ b ∈ bs, s.sampleEnd_ ≤ b.frames)
    (hj : ∀ b ∈ bs, ∀ j ∈ b.jumps, 0 ≤ j ∧ j ≤ s.sampleSize) :
    ∀ p ∈ bs.zip (play s s.init bs), ∀ o ∈ p.2.frames, s.offset ≤ o.1 ∧ o.1 < p.1.frames := by
  have hmain : ∀ bs : List Block, (∀ b ∈ bs, s.sampleEnd_ ≤ b.frames) →
      (∀ b ∈ bs, ∀ j ∈ b.jumps, 0 ≤ j ∧ j ≤ s.sampleSize) → ∀ st : State, s.offset ≤ st.pos → st.pos ≤ s.sampleEnd_ - 1 →
      0 ≤ st.frac → st.frac < 1 →
      ∀ p ∈ bs.zip (play s st bs), ∀ o ∈ p.2.frames, s.offset ≤ o.1 ∧ o.1 ≤ s.sampleEnd_ - 1 := by
    intro bs
    induction bs with
    | nil => simp
    | cons b bs ih =>
      intro hfr hj st h1 h2 h3 h4 p hp o ho
      have hraw := raw_facts st b h3 (fun j hj' => (hj b (by simp) j hj').1)
      have hlast : lastIndex s b = s.sampleEnd_ - 1 := by
        have := hfr b (by simp); unfold lastIndex; omega
      have hnl : loops s st b = false := by
        unfold Setup.mayLoop at hm
        unfold loops
        cases hmode : s.mode <;> rw [hmode] at hm <;> first | (simp; done) | (exact absurd hm (by decide))
      have hadv : ∀ j ∈ advances b, 0 ≤ j ∧ j ≤ s.sampleSize := by
        have hjb := hj b (by simp)
        unfold advances
        cases hb : b.jumps with
        | nil => simp
        | cons j js =>
          rw [hb] at hjb
          intro x hx
          simp only [List.mem_cons] at hx
          rcases hx with rfl | hx
          · split
            · exact ⟨le_refl _, by exact_mod_cast (by omega : (0:Int) ≤ s.sampleSize)⟩
            · exact hjb j (by simp)
          · exact hjb x (by simp [hx])
      have hall : ∀ o ∈ (fillBlock s st b).frames, s.offset ≤ o.1 ∧ o.1 ≤ s.sampleEnd_ - 1 := by
        unfold fillBlock
        split
        · simp
        · simp only [hnl, Bool.false_eq_true, if_false, hlast]
          have hsteps := raw_steps st.pos s.sampleSize (by omega) (advances b) hadv st.frac
          rw [← raw_eq] at hsteps
          have hc0 : (cast st.frac).1 = 0 := by
            simp only [cast]
            rw [min_eq_right (by linarith), Int.floor_eq_zero_iff]
            exact ⟨h3, h4⟩
          rw [hc0, add_zero] at hsteps
          exact shot_count_mem s.sampleSize s.sampleCount s.mayLoop (s.sampleEnd_ - 1) s.offset
            (by unfold Setup.sampleSize; omega) (by unfold Setup.sampleSize at hsz; omega) _ _ 0 0 st.count hsteps
            (by simpa using h1) (by simpa using h2)
      have hst : s.offset ≤ (fillBlock s st b).st.pos ∧ (fillBlock s st b).st.pos ≤ s.sampleEnd_ - 1
          ∧ 0 ≤ (fillBlock s st b).st.frac ∧ (fillBlock s st b).st.frac < 1 := by
        have hfrac : ∀ xs : List (Int × ℚ), (∀ x ∈ xs, 0 ≤ x.2 ∧ x.2 < 1) → ∀ (i br cnt : Nat),
            ∀ o ∈ (shotPass s.sampleSize s.sampleCount s.mayLoop (lastIndex s b) xs i br cnt).out, 0 ≤ o.2 ∧ o.2 < 1 := by
          intro xs
          induction xs with
          | nil => simp [shotPass]
          | cons x xs ihx =>
            obtain ⟨r, f⟩ := x
            intro hx i br cnt o ho
            simp only [shotPass] at ho
            have hx0 := hx (r, f) (by simp)
            have hxs := fun y (hy : y ∈ xs) => hx y (by simp [hy])
            split at ho
            · split at ho
              · simp only [List.mem_cons] at ho
                rcases ho with rfl | ho
                · exact hx0
                · exact ihx hxs _ _ _ o ho
              · rw [List.eq_of_mem_replicate ho]; exact almostOne_mem
            · simp only [List.mem_cons] at ho
              rcases ho with rfl | ho
              · exact hx0
              · exact ihx hxs _ _ _ o ho
        have hfr2 := hfrac (rawPositions st b) (fun x hx => (hraw.2 x hx).2)
        revert hall
        unfold fillBlock
        split
        · intro _; exact ⟨h1, h2, h3, h4⟩
        · simp only [hnl, Bool.false_eq_true, if_false]
          intro hall
          unfold finish
          cases hl : (shotPass s.sampleSize s.sampleCount s.mayLoop (lastIndex s b) (rawPositions st b) 0 0
              st.count).out.getLast? with
          | none => exact ⟨h1, h2, h3, h4⟩
          | some x =>
            have hx := List.mem_of_getLast? hl
            exact ⟨(hall x hx).1, (hall x hx).2, hfr2 _ _ _ x hx⟩
      simp only [play, List.zip_cons_cons, List.mem_cons] at hp
      rcases hp with rfl | hp
      · exact hall o ho
      · exact ih (fun c hc => hfr c (by simp [hc])) (fun c hc => hj c (by simp [hc])) _ hst.1 hst.2.1 hst.2.2.1 hst.2.2.2
          p hp o ho
  intro p hp o ho
  have h := hmain bs hfr hj s.init (by simp [Setup.init]) (by simp only [Setup.init]; unfold Setup.sampleSize at hsz; omega)
    (by simp [Setup.init]) (by simp [Setup.init]) p hp o ho
  have := hfr p.1 (List.of_mem_zip hp).1
  exact ⟨h.1, by omega⟩

/-- A region of 6 frames played three times. -/
def countSetup : Setup :=
  { mode := .noLoop, loopCount := none, sampleCount := some 3, regionEnd := 5, endMod := 0, infoEnd := 5, offset := 0,
    xf := 0 }
def countBlock (j : ℚ) (n : Nat) (frames : Int) : Block :=
  { jumps := List.replicate n j, loopStart := 0, loopEnd := 5, released := false, fresh := true, frames := frames }

example : countSetup.mayLoop = false ∧ 1 ≤ countSetup.sampleSize ∧ repeats countSetup := by
  refine ⟨by decide, by decide, by decide, by decide⟩
example : ((fillBlock countSetup countSetup.init (countBlock 1 14 6)).frames).map Prod.fst
    = [0, 1, 2, 3, 0, 1, 2, 3, 0, 1, 2, 3, 4, 4] := by decide +kernel

/-- C21 is violated by a region that repeats its sample while it is still being loaded: with 8192 of 100000 frames in memory,
the first repetition starts about 91800 frames before the sample. -/
theorem count_streaming_violated : ∃ (s : Setup) (b : Block), repeats s ∧ s.offset = 0 ∧ s.sampleEnd_ = s.infoEnd
    ∧ 1 ≤ s.sampleSize ∧ (∀ j ∈ b.jumps, 0 ≤ j ∧ j ≤ 8191) ∧ 0 < b.frames
    ∧ ∃ o ∈ (fillBlock s s.init b).frames, o.1 < -padding := by
  refine ⟨{ countSetup with regionEnd := 99999, infoEnd := 99999 }, countBlock 8191 2 8192, ?_⟩
  refine ⟨⟨by decide, by decide⟩, by decide, by decide, by decide, by decide +kernel, by decide, (-91807, 0), ?_, by decide⟩
  decide +kernel

/-- C21 is violated by a region that repeats its sample and starts after its end: each repetition moves further beyond the
end of the sample. -/
theorem count_offset_violated : ∃ (s : Setup) (b : Block), repeats s ∧ s.sampleEnd_ ≤ s.infoEnd ∧ s.offset < b.frames
    ∧ s.infoEnd < b.frames ∧ (∀ j ∈ b.jumps, j = 1)
    ∧ ∃ o ∈ (fillBlock s s.init b).frames, b.frames + padding ≤ o.1 := by
  refine ⟨{ countSetup with regionEnd := 10, infoEnd := 999, offset := 900 }, countBlock 1 3 1000, ?_⟩
  refine ⟨⟨by decide, by decide⟩, by decide, by decide, by decide, by decide +kernel, (1791, 0), ?_, by decide⟩
  decide +kernel

/-- C21 is violated by a region that repeats a short sample at a high speed. -/
theorem count_fast_violated : ∃ (s : Setup) (b : Block), repeats s ∧ s.offset = 0 ∧ s.sampleEnd_ = s.infoEnd
    ∧ 1 ≤ s.sampleSize ∧ s.infoEnd < b.frames ∧ (∀ j ∈ b.jumps, j = 100)
    ∧ ∃ o ∈ (fillBlock s s.init b).frames, b.frames + padding ≤ o.1 := by
  refine ⟨countSetup, countBlock 100 2 6, ?_⟩
  refine ⟨⟨by decide, by decide⟩, by decide, by decide, by decide, by decide, by decide +kernel, (96, 0), ?_, by decide⟩
  decide +kernel

/-- C21 is violated by a loop with a count and a crossfade, in a region whose end is moved before its loop by a
controller: when the count is reached the frames to fade in lie before the sample. -/
theorem crossfade_violated : ∃ (s : Setup) (b : Block), s.mode = .loopContinuous ∧ ¬ repeats s ∧ s.offset = 0
    ∧ s.infoEnd < b.frames ∧ (∀ j ∈ b.jumps, 0 ≤ j)
    ∧ ∃ i ∈ (fillBlock s s.init b).xfReads, i < -padding := by
  refine ⟨{ mode := .loopContinuous, loopCount := some 1, sampleCount := none, regionEnd := 1999, endMod := -1998,
            infoEnd := 1999, offset := 0, xf := 1000 },
          { jumps := [0, 1999, 100, 1], loopStart := 1000, loopEnd := 1999, released := false, fresh := true,
            frames := 2000 }, ?_⟩
  refine ⟨rfl, by unfold repeats; decide, rfl, by decide, by decide +kernel, -1000, by decide +kernel, by decide⟩

/-! ### C66: loop counts -/

/-- Looping frames 0 … 3 once more (`loop_count=1`). -/
def loopOnce : Setup :=
  { mode := .loopContinuous, loopCount := some 1, sampleCount := none, regionEnd := 9, endMod := 0, infoEnd := 9, offset := 0,
    xf := 0 }
def loopOnceBlock (n : Nat) (fresh : Bool) : Block :=
  { jumps := List.replicate n 1, loopStart := 0, loopEnd := 3, released := false, fresh := fresh, frames := 10 }

/-- C66 is violated: rendered as one block, the loop is played twice as asked; when a block happens to begin where the loop
ends, it is played a third time. -/
theorem loop_count_violated :
    ((play loopOnce loopOnce.init [loopOnceBlock 12 true]).map (·.frames)).flatten.map Prod.fst
        = [0, 1, 2, 3, 0, 1, 2, 3, 4, 5, 6, 7]
      ∧ ((play loopOnce loopOnce.init [loopOnceBlock 4 true, loopOnceBlock 8 false]).map (·.frames)).flatten.map Prod.fst
        = [0, 1, 2, 3, 0, 1, 2, 3, 0, 1, 2, 3] := by decide +kernel

theorem loopPass_restarts (l : Loop) (hs : 0 < l.size) (c : Nat) (xs : List (Int × ℚ)) :
    ∀ (p : Int) (i br rs : Nat) (oi : Int) (ot : Bool), Steps (l.size - 1) p xs → oi = p - l.size * br → oi ≤ l.stop →
      rs ≤ c → (br = 0 ∨ rs < c) → rs < c →
      (loopPass l (some c) xs i br rs oi ot).restarts ≤ c := by
  induction xs with
  | nil => intros; simpa [loopPass]
  | cons x xs ih =>
    obtain ⟨r, f⟩ := x
    intro p i br rs oi ot hst hoi hle _ _ hlt
    obtain ⟨h1, h2, h3⟩ := hst
    simp only at h1 h2 h3
    obtain ⟨k, hk, hk2, hk3⟩ := wrap_spec l hs (r - l.size * br) 0
    have e : r - l.size * br - l.size * k = r - l.size * ((br + k : Nat) : Int) := by push_cast; ring
    rw [e] at hk hk2 hk3
    have hk1 : k ≤ 1 := by
      by_contra hgt
      have h2k : (2 : Int) ≤ k := by omega
      have := hk3.resolve_left (by omega)
      have hmul : l.size * 2 ≤ l.size * k := Int.mul_le_mul_of_nonneg_left h2k (by omega)
      rw [← e] at this
      simp only [Loop.size] at *
      omega
    have e2 : l.size * ((br + k : Nat) : Int) = l.size * br + l.size * k := by push_cast; ring
    simp only [loopPass, hk, Nat.zero_add]
    split
    · simp only; omega
    · rename_i hnb
      simp only [reached, Bool.and_eq_true, decide_eq_true_eq, not_and, Nat.not_le] at hnb
      have hrs : rs + k < c := by
        rcases Nat.eq_zero_or_pos k with h0 | h0
        · omega
        · have hk' : k = 1 := by omega
          subst hk'
          apply hnb
          rw [e2, hoi]
          push_cast
          omega
      exact ih r (i + 1) (br + k) (rs + k) _ _ h3 rfl hk2 (by omega) (Or.inr hrs) hrs

/-- C66: in a block that does not begin where the loop ends, and at speeds below the length of the loop, the loop is not
repeated more often than asked.

`_partial`: the condition on the start of the block is needed (`loop_count_violated`). -/
theorem loop_count_partial (s : Setup) (st : State) (b : Block) (c : Nat) (hc : s.loopCount = some c)
    (h0 : 0 ≤ st.frac) (h1 : st.frac < 1)
    (hj : ∀ j ∈ b.jumps, 0 ≤ j ∧ j ≤ (updateLoop s b).size - 1) (hr : st.restarts ≤ c)
    (hstart : ∀ x, (rawPositions st b).head? = some x → x.1 ≤ (updateLoop s b).stop) :
    (fillBlock s st b).st.restarts ≤ c := by
  have hsz := loop_size_pos s b
  have hfin : ∀ (t : State) (xs : List (Int × ℚ)), (finish t xs).restarts = t.restarts := by
    intro t xs; unfold finish; cases xs.getLast? <;> rfl
  unfold fillBlock
  split
  · exact hr
  · split
    · rename_i hloop
      simp only [loops, hc, reached, Bool.and_eq_true, Bool.not_eq_true', decide_eq_false_iff_not] at hloop
      have hlt : st.restarts < c := by omega
      simp only [hfin, hc]
      have hadv : ∀ j ∈ advances b, 0 ≤ j ∧ j ≤ (((updateLoop s b).size - 1 : Int) : ℚ) := by
        unfold advances
        cases hb : b.jumps with
        | nil => simp
        | cons j js =>
          rw [hb] at hj
          intro x hx
          simp only [List.mem_cons] at hx
          push_cast
          rcases hx with rfl | hx
          · split
            · refine ⟨le_refl _, ?_⟩
              have : (0 : ℚ) ≤ (((updateLoop s b).size - 1 : Int) : ℚ) := by exact_mod_cast (by omega)
              push_cast at this
              exact this
            · exact hj j (by simp)
          · exact hj x (by simp [hx])
      have hsteps := raw_steps st.pos ((updateLoop s b).size - 1) (by omega) (advances b) hadv st.frac
      rw [← raw_eq] at hsteps
      cases hraw : rawPositions st b with
      | nil => simpa [loopPass] using hr
      | cons x xs =>
        obtain ⟨r, f⟩ := x
        rw [hraw] at hsteps hstart
        have hle := hstart (r, f) rfl
        simp only at hle
        obtain ⟨_, _, hs3⟩ := hsteps
        simp only at hs3
        have hw : wrapIndex (updateLoop s b) r 0 = (r, 0) := by
          rw [wrapIndex, if_neg]; omega
        simp only [loopPass, Nat.cast_zero, mul_zero, sub_zero, hw, Nat.add_zero, reached]
        split
        · exact hr
        · exact loopPass_restarts _ hsz c xs r _ 0 _ r _ hs3 (by simp) hle hr (Or.inl rfl) hlt
    · simp only [hfin]; exact hr

example : (fillBlock loopOnce loopOnce.init (loopOnceBlock 12 true)).st.restarts = 1 := by decide +kernel
example : (rawPositions loopOnce.init (loopOnceBlock 12 true)).head? = some (0, 0)
    ∧ updateLoop loopOnce (loopOnceBlock 12 true) = ⟨0, 3, 0⟩ := by decide +kernel

/-- A loop of frames 4 … 9 with a crossfade of 2 frames meets the hypotheses of the theorems about crossfades and reads the
frames 2 and 3. -/
def xfSetup : Setup := { loopOnce with loopCount := none, xf := 2 }
def xfBlock : Block := { loopOnceBlock 12 true with loopStart := 4, loopEnd := 9 }

example : ¬ repeats xfSetup ∧ (fillBlock xfSetup xfSetup.init xfBlock).xfReads = [2, 3]
    ∧ (fillBlock xfSetup xfSetup.init xfBlock).parts = [(0, 8, false), (8, 2, true), (10, 2, false)] := by
  refine ⟨by unfold repeats; decide, by decide +kernel, by decide +kernel⟩

end Verif.Playback
