import Verif.AudioBuffer.Model
import Mathlib.Data.List.GetD
import Mathlib.Tactic.SplitIfs

/-! C152: a buffer of several channels is a table of samples with silence around it. -/
namespace Verif.AudioBuffer

/-! ### Specification: a table of samples -/

/-- The table: a number of frames and, for each channel, that many samples. -/
structure Table where
  frames : Nat
  chans : List (List Int)
deriving Repr, DecidableEq

/-- A list cut or filled with zeros to the length `n`. -/
def fit (l : List Int) (n : Nat) : List Int := (List.range n).map fun i => l.getD i 0

/-- All the allocations that a resize asks for succeed. -/
def Granted (k : Kind) (t : Table) (n : Nat) (ans : Nat → Bool) : Prop := n + k.padTotal = 0 ∨ ∀ c < t.chans.length, ans c = true

/-- What an operation does to the table; no table after the object was moved from. -/
inductive Does (k : Kind) : Option Table → Op → Option Table → Prop
  | assign (t : Option Table) (c f : Nat) : c ≤ k.max → Does k t (.assign c f) (some ⟨f, List.replicate c (List.replicate f 0)⟩)
  | add (t : Table) (c : Nat) :
      Does k (some t) (.add c) (some ⟨t.frames, t.chans ++ List.replicate (min c (k.max - t.chans.length)) (List.replicate t.frames 0)⟩)
  | tryResize (t : Table) (n : Nat) (ans : Nat → Bool) : Granted k t n ans →
      Does k (some t) (.tryResize n ans) (some ⟨n, t.chans.map (fit · n)⟩)
  | tryFails (t : Table) (n : Nat) (ans : Nat → Bool) : ¬ Granted k t n ans → Does k (some t) (.tryResize n ans) (some t)
  | resize (t : Table) (n : Nat) (ans : Nat → Bool) : Granted k t n ans →
      Does k (some t) (.resize n ans) (some ⟨n, t.chans.map (fit · n)⟩)
  | resizeFails (t : Table) (n : Nat) (ans : Nat → Bool) : ¬ Granted k t n ans → Does k (some t) (.resize n ans) (some t)
  | reset (t : Option Table) : Does k t .reset (some ⟨0, []⟩)
  | clear (t : Table) : Does k (some t) .clear (some ⟨t.frames, t.chans.map fun _ => List.replicate t.frames 0⟩)
  | store (t : Table) (ch i : Nat) (v : Int) (l : List Int) : t.chans[ch]? = some l → i < t.frames →
      Does k (some t) (.store ch i v) (some ⟨t.frames, t.chans.set ch (l.set i v)⟩)
  | moveOut (t : Table) : Does k (some t) .moveOut none

/-- No operation makes the table shorter where that can show: a resize to fewer frames only when no space is kept after the frames and
all its allocations succeed. -/
def Careful (k : Kind) : Option Table → Op → Prop
  | some t, .tryResize n ans => t.frames ≤ n ∨ k.right = 0 ∧ Granted k t n ans
  | some t, .resize n ans => t.frames ≤ n ∨ k.right = 0 ∧ Granted k t n ans
  | _, _ => True

/-- A history of careful operations, from the empty table. -/
inductive History (k : Kind) : List Op → Option Table → Prop
  | start : History k [] (some ⟨0, []⟩)
  | step {os : List Op} {t u : Option Table} (o : Op) : History k os t → Does k t o u → Careful k t o → History k (os ++ [o]) u

/-- A history of careful operations in which no allocation fails. -/
inductive SureHistory (k : Kind) : List Op → Option Table → Prop
  | start : SureHistory k [] (some ⟨0, []⟩)
  | step {os : List Op} {t u : Option Table} (o : Op) : SureHistory k os t → Does k t o u → Careful k t o →
      (∀ s n ans, t = some s → o = .tryResize n ans ∨ o = .resize n ans → Granted k s n ans) → SureHistory k (os ++ [o]) u

/-! ### Lemmas -/

/-- The cells of a buffer that shows the samples `v`, with silence around them. -/
structure Fits (k : Kind) (f : Nat) (v cells : List Int) : Prop where
  len : v.length = f
  room : f + k.padTotal ≤ cells.length
  val : ∀ i, cells.getD i 0 = if k.padLeft ≤ i then v.getD (i - k.padLeft) 0 else 0

theorem getD_replicate (n i : Nat) : (List.replicate n (0 : Int)).getD i 0 = 0 := by
  by_cases h : i < n
  · rw [List.getD_eq_getElem _ _ (by simpa using h)]; simp
  · rw [List.getD_eq_default _ _ (by simpa using h)]

theorem getD_fit (l : List Int) (n i : Nat) : (fit l n).getD i 0 = if i < n then l.getD i 0 else 0 := by
  unfold fit
  by_cases h : i < n
  · rw [List.getD_eq_getElem _ _ (by simpa using h)]; simp [h]
  · rw [List.getD_eq_default _ _ (by simpa using h)]; simp [h]

theorem getD_take_pad (l : List Int) (n i : Nat) :
    (l.take (min n l.length) ++ List.replicate (n - min n l.length) 0).getD i 0 = if i < n then l.getD i 0 else 0 := by
  by_cases h : i < min n l.length
  · rw [List.getD_append _ _ _ _ (by simp; omega), if_pos (by omega)]
    rw [List.getD_eq_getElem _ _ (by simp; omega), List.getD_eq_getElem _ _ (by omega)]; simp
  · rw [List.getD_append_right _ _ _ _ (by simp; omega), getD_replicate]
    split_ifs with h2
    · rw [List.getD_eq_default _ _ (by omega)]
    · rfl

theorem fits_new (k : Kind) (f : Nat) : Fits k f (List.replicate f 0) (newCells (f + k.padTotal)) := by
  refine ⟨by simp, ?_, fun i => ?_⟩
  · unfold newCells resizeCells
    split_ifs <;> simp_all
  · rw [getD_replicate, ite_self]
    unfold newCells resizeCells
    split_ifs
    · rfl
    · simp_all
    · simpa using getD_replicate (f + k.padTotal) i

/-- Growing, or cutting when nothing is kept after the frames. -/
theorem fits_resize {k : Kind} {f n : Nat} {v cells : List Int} (h : Fits k f v cells) (hn : f ≤ n ∨ k.right = 0) (ok : Bool)
    (hok : n + k.padTotal = 0 ∨ ok = true) : Fits k n (fit v n) (resizeCells cells (n + k.padTotal) ok).1 := by
  refine ⟨by simp [fit], ?_, fun i => ?_⟩
  · unfold resizeCells
    split_ifs
    · simp_all
    · simp_all
    · simp; omega
  · rw [getD_fit]
    by_cases h1 : n + k.padTotal = 0
    · unfold resizeCells
      rw [if_pos h1]
      split_ifs
      · omega
      · simp
      · simp
    · have e : (resizeCells cells (n + k.padTotal) ok).1.getD i 0 = if i < n + k.padTotal then cells.getD i 0 else 0 := by
        unfold resizeCells
        rw [if_neg h1, if_neg (by simpa using hok.resolve_left h1)]
        exact getD_take_pad cells _ i
      rw [e, h.val]
      by_cases h3 : k.padLeft ≤ i
      · rw [if_pos h3, if_pos h3]
        by_cases h4 : i - k.padLeft < n
        · rw [if_pos h4, if_pos (by unfold Kind.padTotal; omega)]
        · rw [if_neg h4]
          split_ifs with h5
          · rcases hn with hn | hn
            · rw [List.getD_eq_default _ _ (by rw [h.len]; omega)]
            · unfold Kind.padTotal at h5; omega
          · rfl
      · rw [if_neg h3, if_neg h3, ite_self]

/-- Growing beyond what is shown: the samples shown stay. -/
theorem fits_keep {k : Kind} {f n : Nat} {v cells : List Int} (h : Fits k f v cells) (hn : f ≤ n) (ok : Bool) :
    Fits k f v (resizeCells cells (n + k.padTotal) ok).1 := by
  have hr := h.room
  by_cases hok : n + k.padTotal = 0 ∨ ok = true
  · have e := fits_resize h (Or.inl hn) ok hok
    refine ⟨h.len, by have := e.room; omega, fun i => ?_⟩
    rw [e.val]
    split_ifs
    · rw [getD_fit]
      split_ifs
      · rfl
      · rw [List.getD_eq_default _ _ (by rw [h.len]; omega)]
    · rfl
  · push Not at hok
    unfold resizeCells
    rw [if_neg hok.1, if_pos (by simpa using hok.2)]
    exact h

theorem resizeCells_ok (cells : List Int) (n : Nat) (ok : Bool) : (resizeCells cells n ok).2 = true ↔ n = 0 ∨ ok = true := by
  unfold resizeCells
  split_ifs with h1 h2 <;> simp_all

theorem resizeCells_length {cells : List Int} {n : Nat} {ok : Bool} (h : (resizeCells cells n ok).2 = true) :
    (resizeCells cells n ok).1.length = n := by
  unfold resizeCells at h ⊢
  split_ifs at h ⊢ with h1 h2
  · simp [h1]
  · simp; omega

/-- All buffers have the size `n`. -/
def Exact (n : Nat) (bs : List (Option (List Int))) : Prop := ∀ cells, some cells ∈ bs → cells.length = n

theorem exact_none (n m : Nat) : Exact n (List.replicate m none) := by
  intro cells h
  simp at h

theorem exact_cons {n : Nat} {cells : List Int} {bs : List (Option (List Int))} (h : cells.length = n) (hb : Exact n bs) :
    Exact n (some cells :: bs) := by
  intro c hc
  rcases List.mem_cons.mp hc with e | e
  · rw [Option.some.inj e]; exact h
  · exact hb c e

theorem exact_set {n i : Nat} {cells : List Int} {bs : List (Option (List Int))} (h : cells.length = n) (hb : Exact n bs) :
    Exact n (bs.set i (some cells)) := by
  intro c hc
  rcases List.mem_or_eq_of_mem_set hc with e | e
  · exact hb c e
  · rw [Option.some.inj e]; exact h

/-- The buffers of an object that shows the channels `chans`. -/
inductive Shows (k : Kind) (f : Nat) : List (List Int) → List (Option (List Int)) → Prop
  | nil (m : Nat) : Shows k f [] (List.replicate m none)
  | cons {v cells : List Int} {vs : List (List Int)} {bs : List (Option (List Int))} :
      Fits k f v cells → Shows k f vs bs → Shows k f (v :: vs) (some cells :: bs)

structure Inv (k : Kind) (t : Table) (b : Audio) : Prop where
  size : b.bufs.length = k.max
  channels : b.channels = t.chans.length
  frames : b.frames = t.frames
  shows : Shows k t.frames t.chans b.bufs

theorem Shows.le {k : Kind} {f : Nat} {vs : List (List Int)} {bs : List (Option (List Int))} (h : Shows k f vs bs) :
    vs.length ≤ bs.length := by
  induction h with
  | nil => simp
  | cons _ _ ih => simpa using ih

theorem tryLoop_ok {k : Kind} {f n : Nat} (ans : Nat → Bool) {vs : List (List Int)} {bs : List (Option (List Int))} (h : Shows k f vs bs) :
    ∀ i, ∃ bs' ok, tryLoop (n + k.padTotal) ans i bs vs.length = some (bs', ok) ∧ bs'.length = bs.length ∧
      (ok = true ↔ n + k.padTotal = 0 ∨ ∀ c < vs.length, ans (i + c) = true) ∧
      (ok = true → (f ≤ n ∨ k.right = 0) → Shows k n (vs.map (fit · n)) bs') ∧ (f ≤ n → Shows k f vs bs') ∧
      (ok = true → Exact (n + k.padTotal) bs') := by
  induction h with
  | nil m => intro i; exact ⟨_, true, by simp [tryLoop], rfl, by simp, fun _ _ => .nil m, fun _ => .nil m, fun _ => exact_none _ _⟩
  | @cons v cells vs bs hf _ ih =>
    intro i
    obtain ⟨bs', ok, h1, h2, h3, h4, h5, h6⟩ := ih (i + 1)
    refine ⟨some (resizeCells cells (n + k.padTotal) (ans i)).1 :: bs', (resizeCells cells (n + k.padTotal) (ans i)).2 && ok,
      by simp [tryLoop, h1], by simp [h2], ?_, ?_, fun hn => .cons (fits_keep hf hn _) (h5 hn), fun ho => ?_⟩
    · rw [Bool.and_eq_true, resizeCells_ok, h3]
      constructor
      · rintro ⟨a | a, b | b⟩
        · exact Or.inl a
        · exact Or.inl a
        · exact Or.inl b
        · refine Or.inr fun c hc => ?_
          rcases c with _ | c
          · exact a
          · have := b c (by simpa using hc)
            rwa [show i + (c + 1) = i + 1 + c by omega]
      · rintro (a | a)
        · exact ⟨Or.inl a, Or.inl a⟩
        · refine ⟨Or.inr (a 0 (by simp)), Or.inr fun c hc => ?_⟩
          have := a (c + 1) (by simpa using hc)
          rwa [show i + (c + 1) = i + 1 + c by omega] at this
    · intro ho hn
      rw [Bool.and_eq_true] at ho
      exact .cons (fits_resize hf hn _ ((resizeCells_ok _ _ _).mp ho.1)) (h4 ho.2 hn)
    · rw [Bool.and_eq_true] at ho
      exact exact_cons (resizeCells_length ho.1) (h6 ho.2)

theorem throwLoop_ok {k : Kind} {f n : Nat} (ans : Nat → Bool) {vs : List (List Int)} {bs : List (Option (List Int))} (h : Shows k f vs bs) :
    ∀ i, ∃ bs' ok, throwLoop (n + k.padTotal) ans i bs vs.length = some (bs', ok) ∧ bs'.length = bs.length ∧
      (ok = true ↔ n + k.padTotal = 0 ∨ ∀ c < vs.length, ans (i + c) = true) ∧
      (ok = true → (f ≤ n ∨ k.right = 0) → Shows k n (vs.map (fit · n)) bs') ∧ (f ≤ n → Shows k f vs bs') ∧
      (ok = true → Exact (n + k.padTotal) bs') := by
  induction h with
  | nil m => intro i; exact ⟨_, true, by simp [throwLoop], rfl, by simp, fun _ _ => .nil m, fun _ => .nil m, fun _ => exact_none _ _⟩
  | @cons v cells vs bs hf hs ih =>
    intro i
    by_cases hc : (resizeCells cells (n + k.padTotal) (ans i)).2 = false
    · refine ⟨some cells :: bs, false, by simp [throwLoop, hc], rfl, ?_, by simp, fun _ => .cons hf hs, by simp⟩
      have : ¬ (n + k.padTotal = 0 ∨ ans i = true) := by rw [← resizeCells_ok cells, hc]; simp
      push Not at this
      simp only [Bool.false_eq_true, false_iff, not_or]
      exact ⟨this.1, fun a => this.2 (a 0 (by simp))⟩
    · have hc' : (resizeCells cells (n + k.padTotal) (ans i)).2 = true := by simpa using hc
      obtain ⟨bs', ok, h1, h2, h3, h4, h5, h6⟩ := ih (i + 1)
      refine ⟨some (resizeCells cells (n + k.padTotal) (ans i)).1 :: bs', ok,
        by simp [throwLoop, h1, hc'], by simp [h2], ?_, ?_, fun hn => .cons (fits_keep hf hn _) (h5 hn),
        fun ho => exact_cons (resizeCells_length hc') (h6 ho)⟩
      · rw [h3]
        rw [resizeCells_ok] at hc'
        constructor
        · rintro (a | b)
          · exact Or.inl a
          · rcases hc' with a | a
            · exact Or.inl a
            · refine Or.inr fun c hc => ?_
              rcases c with _ | c
              · exact a
              · have := b c (by simpa using hc)
                rwa [show i + (c + 1) = i + 1 + c by omega]
        · rintro (a | a)
          · exact Or.inl a
          · refine Or.inr fun c hc => ?_
            have := a (c + 1) (by simpa using hc)
            rwa [show i + (c + 1) = i + 1 + c by omega] at this
      · intro ho hn
        exact .cons (fits_resize hf hn _ ((resizeCells_ok _ _ _).mp hc')) (h4 ho hn)

theorem newCells_length (n : Nat) : (newCells n).length = n := resizeCells_length ((resizeCells_ok _ _ _).mpr (Or.inr rfl))

theorem newLoop_ok (k : Kind) (f : Nat) : ∀ c m, c ≤ m →
    ∃ bs, newLoop (newCells (f + k.padTotal)) (List.replicate m none) c = some bs ∧ bs.length = m ∧
      Shows k f (List.replicate c (List.replicate f 0)) bs ∧ Exact (f + k.padTotal) bs
  | 0, m, _ => ⟨List.replicate m none, by simp [newLoop], by simp, by simpa using Shows.nil m, exact_none _ _⟩
  | c + 1, 0, h => by omega
  | c + 1, m + 1, h => by
    obtain ⟨bs, h1, h2, h3, h4⟩ := newLoop_ok k f c m (by omega)
    refine ⟨some (newCells (f + k.padTotal)) :: bs, by simp [List.replicate_succ, newLoop, h1], by simp [h2], ?_,
      exact_cons (newCells_length _) h4⟩
    rw [List.replicate_succ]
    exact .cons (fits_new k f) h3

theorem shows_set_next {k : Kind} {f : Nat} {vs : List (List Int)} {bs : List (Option (List Int))} (h : Shows k f vs bs)
    {v cells : List Int} (hf : Fits k f v cells) (hl : vs.length < bs.length) :
    Shows k f (vs ++ [v]) (bs.set vs.length (some cells)) := by
  induction h with
  | nil m =>
    rcases m with _ | m
    · simp at hl
    · simpa [List.replicate_succ] using Shows.cons hf (.nil m)
  | cons hf' _ ih =>
    simpa using Shows.cons hf' (ih (by simpa using hl))

theorem addChannels_ok {k : Kind} : ∀ (c : Nat) {t : Table} {b : Audio}, Inv k t b →
    Inv k ⟨t.frames, t.chans ++ List.replicate (min c (k.max - t.chans.length)) (List.replicate t.frames 0)⟩ (addChannels k b c)
  | 0, t, b, h => by simpa [addChannels] using h
  | c + 1, t, b, h => by
    rw [addChannels]
    unfold addChannel
    split_ifs with hc
    · have hi : Inv k ⟨t.frames, t.chans ++ [List.replicate t.frames 0]⟩
          { b with bufs := b.bufs.set b.channels (some (newCells (b.frames + k.padTotal))), channels := b.channels + 1 } := by
        refine ⟨by simp [h.size], by simp [h.channels], h.frames, ?_⟩
        rw [h.channels, h.frames]
        refine shows_set_next h.shows (fits_new k t.frames) ?_
        rw [h.size, ← h.channels]; exact hc
      have := addChannels_ok c hi
      have e : min (c + 1) (k.max - t.chans.length) = min c (k.max - (t.chans ++ [List.replicate t.frames 0]).length) + 1 := by
        have := h.channels
        simp; omega
      rw [e, List.replicate_succ]
      simpa using this
    · have := addChannels_ok c h
      have hle := h.channels
      rw [show k.max - t.chans.length = 0 by omega] at this ⊢
      simpa using this

theorem clearLoop_ok {k : Kind} {f : Nat} {vs : List (List Int)} {bs : List (Option (List Int))} (h : Shows k f vs bs) :
    ∃ bs', clearLoop (f + k.padTotal) bs vs.length = some bs' ∧ bs'.length = bs.length ∧
      Shows k f (vs.map fun _ => List.replicate f 0) bs' ∧ (∀ m, Exact m bs → Exact m bs') := by
  induction h with
  | nil m => exact ⟨_, by simp [clearLoop], rfl, .nil m, fun _ h => h⟩
  | @cons v cells vs bs hf hs ih =>
    obtain ⟨bs', h1, h2, h3, h4⟩ := ih
    have hr := hf.room
    refine ⟨some (List.replicate (f + k.padTotal) 0 ++ cells.drop (f + k.padTotal)) :: bs', ?_, by simp [h2], .cons ⟨by simp, by simp, fun i => ?_⟩ h3,
      fun m hm => exact_cons ?_ (h4 m fun c hc => hm c (List.mem_cons_of_mem _ hc))⟩
    · simp only [clearLoop, List.length_cons, h1]
      rw [if_neg (by omega)]; rfl
    · rw [getD_replicate, ite_self]
      by_cases hi : i < f + k.padTotal
      · rw [List.getD_append _ _ _ _ (by simpa using hi), getD_replicate]
      · rw [List.getD_append_right _ _ _ _ (by simpa using hi), List.length_replicate]
        have e : (cells.drop (f + k.padTotal)).getD (i - (f + k.padTotal)) 0 = cells.getD i 0 := by
          simp only [List.getD_eq_getElem?_getD, List.getElem?_drop]
          rw [show f + k.padTotal + (i - (f + k.padTotal)) = i by omega]
        rw [e, hf.val]
        have := hf.len
        split_ifs
        · rw [List.getD_eq_default _ _ (by unfold Kind.padTotal at hi; omega)]
        · rfl
    · rw [← hm cells (by simp)]
      simp; omega

theorem Shows.get {k : Kind} {f : Nat} {vs : List (List Int)} {bs : List (Option (List Int))} (h : Shows k f vs bs) :
    ∀ {ch : Nat} {v : List Int}, vs[ch]? = some v → ∃ cells, bs[ch]? = some (some cells) ∧ Fits k f v cells := by
  induction h with
  | nil m => intro ch v hv; simp at hv
  | cons hf hs ih =>
    intro ch v hv
    rcases ch with _ | ch
    · simp only [List.getElem?_cons_zero, Option.some.injEq] at hv ⊢
      exact ⟨_, rfl, hv ▸ hf⟩
    · simp only [List.getElem?_cons_succ] at hv ⊢
      exact ih hv

theorem Shows.set {k : Kind} {f : Nat} {vs : List (List Int)} {bs : List (Option (List Int))} (h : Shows k f vs bs) :
    ∀ {ch : Nat} {v cells : List Int}, ch < vs.length → Fits k f v cells → Shows k f (vs.set ch v) (bs.set ch (some cells)) := by
  induction h with
  | nil m => intro ch v cells hc; simp at hc
  | cons hf hs ih =>
    intro ch v cells hc hv
    rcases ch with _ | ch
    · exact .cons hv hs
    · exact .cons hf (ih (by simpa using hc) hv)

theorem Shows.drop {k : Kind} {f : Nat} {vs : List (List Int)} {bs : List (Option (List Int))} (h : Shows k f vs bs) :
    List.replicate vs.length none ++ bs.drop vs.length = List.replicate bs.length (none : Option (List Int)) := by
  induction h with
  | nil m => simp
  | cons hf hs ih => simpa [List.replicate_succ] using ih

theorem fits_set {k : Kind} {f i : Nat} {v cells : List Int} (h : Fits k f v cells) (hi : i < f) (x : Int) :
    Fits k f (v.set i x) (cells.set (k.padLeft + i) x) := by
  have hr := h.room
  have hl := h.len
  unfold Kind.padTotal at hr
  refine ⟨by simpa using hl, by simpa using h.room, fun j => ?_⟩
  have hv := h.val j
  simp only [List.getD_eq_getElem?_getD, List.getElem?_set] at hv ⊢
  by_cases hj : k.padLeft + i = j
  · subst hj
    rw [if_pos rfl, if_pos (by omega), if_pos (by omega), if_pos (by omega), if_pos (by omega)]
  · rw [if_neg hj, hv]
    by_cases hp : k.padLeft ≤ j
    · rw [if_pos hp, if_pos hp, if_neg (by omega)]
    · rw [if_neg hp, if_neg hp]

/-- The object and the table; after a move the buffers are null. -/
def Matches (k : Kind) : Option Table → Audio → Prop
  | some t, b => Inv k t b
  | none, b => b.bufs = List.replicate k.max none ∧ b.channels ≤ k.max

theorem step_ok {k : Kind} {t u : Option Table} {b : Audio} (h : Matches k t b) (o : Op) (hd : Does k t o u) (hc : Careful k t o) :
    ∃ b', step k b o = some b' ∧ Matches k u b' := by
  cases hd with
  | assign t c f hm =>
    obtain ⟨bs, h1, h2, h3, _⟩ := newLoop_ok k f c k.max hm
    exact ⟨⟨bs, c, f⟩, by simp [step, construct, h1], ⟨h2, by simp, rfl, h3⟩⟩
  | add t c => exact ⟨_, rfl, addChannels_ok c h⟩
  | tryResize t n ans hg =>
    obtain ⟨bs', ok, h1, h2, h3, h4, h5, _⟩ := tryLoop_ok (n := n) ans h.shows 0
    have ho : ok = true := h3.mpr (by simpa [Granted] using hg)
    subst ho
    refine ⟨⟨bs', b.channels, n⟩, by simp [step, tryResize, h.channels, h1], ⟨by rw [h2, h.size], by simp [h.channels], rfl, h4 rfl ?_⟩⟩
    rcases hc with hc | hc
    · exact Or.inl hc
    · exact Or.inr hc.1
  | tryFails t n ans hg =>
    obtain ⟨bs', ok, h1, h2, h3, h4, h5, _⟩ := tryLoop_ok (n := n) ans h.shows 0
    have ho : ok = false := by
      rw [← Bool.not_eq_true, h3]; simpa [Granted] using hg
    subst ho
    refine ⟨⟨bs', b.channels, b.frames⟩, by simp [step, tryResize, h.channels, h1], ⟨by rw [h2, h.size], h.channels, h.frames, h5 ?_⟩⟩
    rcases hc with hc | hc
    · exact hc
    · exact absurd hc.2 hg
  | resize t n ans hg =>
    obtain ⟨bs', ok, h1, h2, h3, h4, h5, _⟩ := throwLoop_ok (n := n) ans h.shows 0
    have ho : ok = true := h3.mpr (by simpa [Granted] using hg)
    subst ho
    refine ⟨⟨bs', b.channels, n⟩, by simp [step, resize, h.channels, h1], ⟨by rw [h2, h.size], by simp [h.channels], rfl, h4 rfl ?_⟩⟩
    rcases hc with hc | hc
    · exact Or.inl hc
    · exact Or.inr hc.1
  | resizeFails t n ans hg =>
    obtain ⟨bs', ok, h1, h2, h3, h4, h5, _⟩ := throwLoop_ok (n := n) ans h.shows 0
    have ho : ok = false := by
      rw [← Bool.not_eq_true, h3]; simpa [Granted] using hg
    subst ho
    refine ⟨⟨bs', b.channels, b.frames⟩, by simp [step, resize, h.channels, h1], ⟨by rw [h2, h.size], h.channels, h.frames, h5 ?_⟩⟩
    rcases hc with hc | hc
    · exact hc
    · exact absurd hc.2 hg
  | reset t =>
    refine ⟨_, rfl, ?_⟩
    have e : (reset b).bufs = List.replicate k.max none := by
      cases t with
      | none => rw [reset, h.1]; have := h.2; simp; omega
      | some t => rw [reset, h.channels, h.shows.drop, h.size]
    exact ⟨by rw [e]; simp, rfl, rfl, by rw [e]; exact .nil _⟩
  | clear t =>
    obtain ⟨bs', h1, h2, h3, _⟩ := clearLoop_ok h.shows
    exact ⟨{ b with bufs := bs' }, by simp [step, clear, h.frames, h.channels, h1], ⟨by rw [h2, h.size], by simp [h.channels], h.frames, h3⟩⟩
  | store t ch i v l hl hi =>
    obtain ⟨cells, h1, h2⟩ := h.shows.get hl
    have hr := h2.room
    have hch : ch < t.chans.length := (List.getElem?_eq_some_iff.mp hl).1
    refine ⟨{ b with bufs := b.bufs.set ch (some (cells.set (k.padLeft + i) v)) }, ?_,
      ⟨by simp [h.size], by simp [h.channels], h.frames, h.shows.set hch (fits_set h2 hi v)⟩⟩
    simp only [step, store, h1]
    rw [if_pos (by unfold Kind.padTotal at hr; omega)]
  | moveOut t =>
    refine ⟨_, rfl, ?_, ?_⟩
    · simp [movedFrom, ← h.size]
    · have := h.shows.le
      rw [h.size] at this
      simpa [movedFrom, h.channels] using this

theorem run_append {k : Kind} : ∀ (os : List Op) (o : Op) (b : Audio), run k b (os ++ [o]) = (run k b os).bind (step k · o)
  | [], o, b => by simp [run]
  | p :: os, o, b => by
    simp only [List.cons_append, run]
    cases step k b p with
    | none => rfl
    | some b1 => exact run_append os o b1

theorem history_ok {k : Kind} {os : List Op} {t : Option Table} (h : History k os t) : ∃ b, run k (empty k) os = some b ∧ Matches k t b := by
  induction h with
  | start => exact ⟨_, rfl, ⟨by simp [empty], rfl, rfl, .nil _⟩⟩
  | step o _ hd hc ih =>
    obtain ⟨b, h1, h2⟩ := ih
    obtain ⟨b', h3, h4⟩ := step_ok h2 o hd hc
    exact ⟨b', by rw [run_append, h1]; exact h3, h4⟩

theorem addChannels_exact {k : Kind} : ∀ (c : Nat) {b : Audio}, Exact (b.frames + k.padTotal) b.bufs →
    Exact ((addChannels k b c).frames + k.padTotal) (addChannels k b c).bufs
  | 0, b, h => h
  | c + 1, b, h => by
    rw [addChannels]
    apply addChannels_exact c
    unfold addChannel
    split_ifs
    · exact exact_set (newCells_length _) h
    · exact h

theorem step_exact {k : Kind} {t u : Option Table} {b b' : Audio} (h : Matches k t b) (he : Exact (b.frames + k.padTotal) b.bufs) (o : Op)
    (hd : Does k t o u) (hg : ∀ s n ans, t = some s → o = .tryResize n ans ∨ o = .resize n ans → Granted k s n ans)
    (hs : step k b o = some b') : Exact (b'.frames + k.padTotal) b'.bufs := by
  cases hd with
  | assign t c f hm =>
    obtain ⟨bs, h1, h2, h3, h4⟩ := newLoop_ok k f c k.max hm
    simp only [step, construct, h1, Option.map_some, Option.some.injEq] at hs
    subst hs
    exact h4
  | add t c =>
    simp only [step, Option.some.injEq] at hs
    subst hs
    exact addChannels_exact c he
  | tryResize t n ans g =>
    obtain ⟨bs', ok, h1, h2, h3, h4, h5, h6⟩ := tryLoop_ok (n := n) ans h.shows 0
    have ho : ok = true := h3.mpr (by simpa [Granted] using g)
    subst ho
    simp only [step, tryResize, h.channels, h1, Option.map_some, Option.some.injEq] at hs
    subst hs
    exact h6 rfl
  | tryFails t n ans g => exact absurd (hg t n ans rfl (Or.inl rfl)) g
  | resize t n ans g =>
    obtain ⟨bs', ok, h1, h2, h3, h4, h5, h6⟩ := throwLoop_ok (n := n) ans h.shows 0
    have ho : ok = true := h3.mpr (by simpa [Granted] using g)
    subst ho
    simp only [step, resize, h.channels, h1, Option.map_some, Option.some.injEq] at hs
    subst hs
    exact h6 rfl
  | resizeFails t n ans g => exact absurd (hg t n ans rfl (Or.inr rfl)) g
  | reset t =>
    simp only [step, Option.some.injEq] at hs
    subst hs
    have e : (reset b).bufs = List.replicate k.max none := by
      cases t with
      | none => rw [reset, h.1]; have := h.2; simp; omega
      | some t => rw [reset, h.channels, h.shows.drop, h.size]
    rw [e]
    exact exact_none _ _
  | clear t =>
    obtain ⟨bs', h1, h2, h3, h4⟩ := clearLoop_ok h.shows
    simp only [step, clear, h.frames, h.channels, h1, Option.map_some, Option.some.injEq] at hs
    subst hs
    exact h4 _ (h.frames ▸ he)
  | store t ch i v l hl hi =>
    obtain ⟨cells, h1, h2⟩ := h.shows.get hl
    have hr := h2.room
    simp only [step, store, h1] at hs
    rw [if_pos (by unfold Kind.padTotal at hr; omega), Option.some.injEq] at hs
    subst hs
    refine exact_set ?_ he
    rw [List.length_set]
    exact he cells (List.mem_of_getElem? h1)
  | moveOut t =>
    simp only [step, Option.some.injEq] at hs
    subst hs
    intro cells hc
    simp [movedFrom] at hc

theorem sure_ok {k : Kind} {os : List Op} {t : Option Table} (h : SureHistory k os t) :
    History k os t ∧ ∃ b, run k (empty k) os = some b ∧ Matches k t b ∧ Exact (b.frames + k.padTotal) b.bufs := by
  induction h with
  | start => exact ⟨.start, _, rfl, ⟨by simp [empty], rfl, rfl, .nil _⟩, exact_none _ _⟩
  | step o _ hd hc hg ih =>
    obtain ⟨hh, b, h1, h2, h3⟩ := ih
    obtain ⟨b', h4, h5⟩ := step_ok h2 o hd hc
    exact ⟨.step o hh hd hc, b', by rw [run_append, h1]; exact h4, h5, step_exact h2 h3 o hd hg h4⟩

/-! ### Theorems -/

/-- **C152.** After any history of careful operations nothing has touched memory outside the buffers, and the object shows the table: its
number of channels, never more than the maximum, its number of frames, in each channel the samples of the table, and before the first
and after the last frame silence, as far as the space kept there goes. Missing: resizing to fewer frames when space is kept after the
frames, or when an allocation fails (see below). -/
theorem table_partial (k : Kind) (os : List Op) (t : Table) (h : History k os (some t)) :
    ∃ b, run k (empty k) os = some b ∧ b.channels = t.chans.length ∧ b.channels ≤ k.max ∧ b.frames = t.frames ∧
      (∀ ch, span k b ch = some (t.chans.getD ch [])) ∧
      (∀ ch v, t.chans[ch]? = some v → ∀ p : Int, -(k.padLeft : Int) ≤ p → p < t.frames + k.right →
        look k b ch p = some (if 0 ≤ p then v.getD p.toNat 0 else 0)) := by
  obtain ⟨b, h1, h2⟩ := history_ok h
  refine ⟨b, h1, h2.channels, ?_, h2.frames, fun ch => ?_, fun ch v hv p hp hq => ?_⟩
  · rw [h2.channels, ← h2.size]; exact h2.shows.le
  · unfold span
    rw [h2.channels]
    split_ifs with hc
    · have hv : t.chans[ch]? = some t.chans[ch] := List.getElem?_eq_getElem hc
      obtain ⟨cells, h3, h4⟩ := h2.shows.get hv
      have hr := h4.room
      have hl := h4.len
      unfold Kind.padTotal at hr
      simp only [h3, h2.frames]
      rw [if_pos (by omega), List.getD_eq_getElem _ _ hc]
      congr 1
      apply List.ext_getElem
      · simp; omega
      · intro i hi1 hi2
        have := h4.val (k.padLeft + i)
        rw [if_pos (by omega), Nat.add_sub_cancel_left, List.getD_eq_getElem _ _ (by omega), List.getD_eq_getElem _ _ (by omega)] at this
        simpa using this
    · rw [List.getD_eq_default _ _ (by omega)]
  · obtain ⟨cells, h3, h4⟩ := h2.shows.get hv
    have hr := h4.room
    unfold Kind.padTotal at hr
    simp only [look, h3]
    rw [if_pos (by omega), List.getElem?_eq_getElem (by omega)]
    have := h4.val ((k.padLeft : Int) + p).toNat
    rw [List.getD_eq_getElem _ _ (by omega)] at this
    rw [this]
    congr 1
    by_cases h0 : 0 ≤ p
    · rw [if_pos (by omega), if_pos h0]
      congr 1
      omega
    · rw [if_neg (by omega), if_neg h0]

/-- **C152.** A resize tells the truth: it answers yes (or does not throw) exactly when memory was granted for every channel. -/
theorem resize_answer (k : Kind) (os : List Op) (t : Table) (h : History k os (some t)) (n : Nat) (ans : Nat → Bool) :
    ∃ b, run k (empty k) os = some b ∧
      ((tryResize k b n ans).map (·.2) = some true ↔ Granted k t n ans) ∧ ((resize k b n ans).map (·.2) = some true ↔ Granted k t n ans) := by
  obtain ⟨b, h1, h2⟩ := history_ok h
  obtain ⟨bs', ok, h3, _, h4, _⟩ := tryLoop_ok (n := n) ans h2.shows 0
  obtain ⟨bs'', ok', h5, _, h6, _⟩ := throwLoop_ok (n := n) ans h2.shows 0
  refine ⟨b, h1, ?_, ?_⟩
  · simp only [tryResize, h2.channels, h3, Option.map_some, Option.some.injEq, h4, Granted, Nat.zero_add]
  · simp only [resize, h2.channels, h5, Option.map_some, Option.some.injEq, h6, Granted, Nat.zero_add]

/-- **C152.** When no allocation failed, what lies between the begin and the end of a channel is the channel of the table, no more and no
less. -/
theorem between_partial (k : Kind) (os : List Op) (t : Table) (h : SureHistory k os (some t)) :
    ∃ b, run k (empty k) os = some b ∧ ∀ ch, between k b ch = some (t.chans.getD ch []) := by
  obtain ⟨hh, b, h1, h2, h3⟩ := sure_ok h
  obtain ⟨b', h4, h5, h6, h7, h8, _⟩ := table_partial k os t hh
  rw [h1, Option.some.injEq] at h4
  subst h4
  refine ⟨b, h1, fun ch => ?_⟩
  rw [← h8 ch]
  unfold between span
  split_ifs with hc
  · rw [h5] at hc
    obtain ⟨cells, h9, h10⟩ := h2.shows.get (List.getElem?_eq_getElem hc)
    have hl := h3 cells (List.mem_of_getElem? h9)
    simp only [h9]
    rw [if_pos (by omega), if_pos (by unfold Kind.padTotal at hl; omega), hl, Nat.add_sub_cancel]
  · rfl

theorem Shows.beyond {k : Kind} {f : Nat} {vs : List (List Int)} {bs : List (Option (List Int))} (h : Shows k f vs bs) :
    ∀ {ch : Nat}, vs.length ≤ ch → ∀ cells, bs[ch]? ≠ some (some cells) := by
  induction h with
  | nil m => intro ch _ cells h; rw [List.getElem?_replicate] at h; split_ifs at h; cases h
  | cons hf hs ih =>
    intro ch hc cells
    rcases ch with _ | ch
    · simp at hc
    · simpa using ih (by simpa using hc) cells

/-- **C152.** The frames begin at an aligned place of the buffer (which is itself aligned, C130), the first one that leaves the space asked
for before them. -/
theorem frames_aligned (k : Kind) (h : 0 < k.align) :
    k.align ∣ k.padLeft ∧ k.left ≤ k.padLeft ∧ ∀ m, k.align ∣ m → k.left ≤ m → k.padLeft ≤ m := by
  have hm := Nat.mod_lt k.left h
  have hd := Nat.div_add_mod k.left k.align
  have key : k.padLeft = if k.left % k.align = 0 then k.left else k.left + (k.align - k.left % k.align) := by
    unfold Kind.padLeft
    split_ifs with h0
    · rw [h0]; simp
    · rw [Nat.mod_eq_of_lt (by omega)]
  have hdvd : k.align ∣ k.padLeft := by
    rw [key]
    split_ifs with h0
    · exact Nat.dvd_of_mod_eq_zero h0
    · refine ⟨k.left / k.align + 1, ?_⟩
      rw [Nat.mul_add, Nat.mul_one]; omega
  have hle : k.left ≤ k.padLeft := by unfold Kind.padLeft; omega
  refine ⟨hdvd, hle, fun m hmd hml => ?_⟩
  by_contra hlt
  have h1 : k.align ∣ k.padLeft - m := Nat.dvd_sub hdvd hmd
  have h2 : k.align ≤ k.padLeft - m := Nat.le_of_dvd (by omega) h1
  have h3 : k.padLeft < k.left + k.align := by rw [key]; split_ifs <;> omega
  omega

/-- **C152.** A store is within the memory of the object exactly for a channel of the table and a frame of it or of the space kept after
the frames; when no allocation failed. -/
theorem store_within (k : Kind) (os : List Op) (t : Table) (h : SureHistory k os (some t)) (ch i : Nat) (v : Int) :
    ((run k (empty k) os).bind (store k · ch i v)).isSome = true ↔ ch < t.chans.length ∧ i < t.frames + k.right := by
  obtain ⟨hh, b, h1, h2, h3⟩ := sure_ok h
  have h2' : Inv k t b := h2
  rw [h1, Option.bind_some]
  unfold store
  by_cases hc : ch < t.chans.length
  · obtain ⟨cells, h4, _⟩ := h2'.shows.get (List.getElem?_eq_getElem hc)
    have hl := h3 cells (List.mem_of_getElem? h4)
    rw [h2'.frames] at hl
    unfold Kind.padTotal at hl
    simp only [h4]
    split_ifs with hi
    · simp only [Option.isSome_some, true_iff]; exact ⟨hc, by omega⟩
    · simp only [Option.isSome_none, Bool.false_eq_true, false_iff]; rintro ⟨_, h⟩; omega
  · have hb := h2'.shows.beyond (Nat.le_of_not_lt hc)
    have : ¬ (ch < t.chans.length ∧ i < t.frames + k.right) := fun h => hc h.1
    simp [this]

/-- **C152.** Around the samples of a file there is silence for 64 frames before the first and after the last, which is where the
interpolators read; a file has at most two channels. Missing as in `table_partial`. -/
theorem file_margins_partial (os : List Op) (t : Table) (h : History files os (some t)) :
    ∃ b, run files (empty files) os = some b ∧ b.channels ≤ 2 ∧ ∀ ch v, t.chans[ch]? = some v → ∀ p : Int,
      (-64 ≤ p → p < 0 → look files b ch p = some 0) ∧
      (t.frames ≤ p → p < t.frames + 64 → look files b ch p = some 0) := by
  obtain ⟨b, h1, h2, h3, _, h5, h6⟩ := table_partial files os t h
  obtain ⟨b', h1', h2'⟩ := history_ok h
  rw [h1, Option.some.injEq] at h1'
  subst h1'
  refine ⟨b, h1, h3, fun ch v hv p => ⟨fun a c => ?_, fun a c => ?_⟩⟩
  · rw [h6 ch v hv p (by show -((64 : Nat) : Int) ≤ p; omega) (by omega), if_neg (by omega)]
  · have h0 : (0 : Int) ≤ p := by omega
    rw [h6 ch v hv p (by omega) (by show p < t.frames + ((64 : Nat) : Int); omega), if_pos h0]
    obtain ⟨cells, _, hf⟩ := (show Inv files t b from h2').shows.get hv
    have hlen := hf.len
    rw [List.getD_eq_default _ _ (by omega)]

/-- **C152.** The work buffers have room for 32 channels: so many can be added, and no more. -/
theorem work_channels (n : Nat) : (run floats (empty floats) [.add n]).map (·.channels) = some (min n 32) := by
  have h : History floats ([] ++ [.add n]) (some ⟨0, [] ++ List.replicate (min n (floats.max - 0)) (List.replicate 0 0)⟩) :=
    .step (.add n) .start (.add ⟨0, []⟩ n) trivial
  obtain ⟨b, h1, h2, _⟩ := table_partial _ _ _ h
  rw [List.nil_append] at h1
  rw [h1, Option.map_some, h2]
  simp [floats]

/-! ### Cases -/

example : ({ max := 1, align := 16, left := 5, right := 3 } : Kind).padLeft = 16 ∧ files.padLeft = 64 ∧ floats.padLeft = 0 := by decide

/-- Memory for every channel, and for none but the first. -/
def always : Nat → Bool := fun _ => true
def firstOnly : Nat → Bool := fun c => c == 0

/-- A sample file: two channels, grown to three frames, written, grown further though memory for the second channel is refused. -/
def loading : List Op := [.reset, .add 3, .resize 3 always, .store 0 2 7, .store 1 0 (-4), .tryResize 5 firstOnly]

theorem loading_history : History files loading (some ⟨3, [[0, 0, 7], [-4, 0, 0]]⟩) := by
  have h1 : History files [.reset] (some ⟨0, []⟩) := .step .reset .start (.reset _) trivial
  have h2 : History files [.reset, .add 3] (some ⟨0, [[], []]⟩) := .step (.add 3) h1 (.add _ 3) trivial
  have h3 : History files [.reset, .add 3, .resize 3 always] (some ⟨3, [[0, 0, 0], [0, 0, 0]]⟩) :=
    .step (.resize 3 always) h2 (.resize ⟨0, [[], []]⟩ 3 always (Or.inr fun _ _ => rfl)) (Or.inl (by decide))
  have h4 : History files [.reset, .add 3, .resize 3 always, .store 0 2 7] (some ⟨3, [[0, 0, 7], [0, 0, 0]]⟩) :=
    .step (.store 0 2 7) h3 (.store ⟨3, [[0, 0, 0], [0, 0, 0]]⟩ 0 2 7 [0, 0, 0] rfl (by decide)) trivial
  have h5 : History files [.reset, .add 3, .resize 3 always, .store 0 2 7, .store 1 0 (-4)] (some ⟨3, [[0, 0, 7], [-4, 0, 0]]⟩) :=
    .step (.store 1 0 (-4)) h4 (.store ⟨3, [[0, 0, 7], [0, 0, 0]]⟩ 1 0 (-4) [0, 0, 0] rfl (by decide)) trivial
  refine .step (.tryResize 5 firstOnly) h5 (.tryFails ⟨3, [[0, 0, 7], [-4, 0, 0]]⟩ 5 firstOnly ?_) (Or.inl (by decide))
  rintro (h | h)
  · exact absurd h (by decide)
  · exact absurd (h 1 (by decide)) (by decide)

example : ∃ b, run files (empty files) loading = some b ∧ span files b 0 = some [0, 0, 7] ∧ look files b 0 (-64) = some 0 ∧
    look files b 1 66 = some 0 := by
  obtain ⟨b, h1, _, _, _, h2, h3⟩ := table_partial _ _ _ loading_history
  exact ⟨b, h1, h2 0, h3 0 [0, 0, 7] rfl (-64) (by decide) (by decide), h3 1 [-4, 0, 0] rfl 66 (by decide) (by decide)⟩

example : ∃ b, run files (empty files) loading = some b ∧ (tryResize files b 9 firstOnly).map (·.2) ≠ some true := by
  obtain ⟨b, h1, h2, _⟩ := resize_answer _ _ _ loading_history 9 firstOnly
  refine ⟨b, h1, fun h => ?_⟩
  rcases h2.mp h with c | c
  · exact absurd c (by decide)
  · exact absurd (c 1 (by decide)) (by decide)

/-- A work buffer made for three frames, written, and cut to one. -/
theorem cut_history : SureHistory floats [.assign 2 3, .store 1 0 8, .store 1 2 9, .resize 1 always] (some ⟨1, [[0], [8]]⟩) := by
  have h1 : SureHistory floats [.assign 2 3] (some ⟨3, [[0, 0, 0], [0, 0, 0]]⟩) :=
    .step (.assign 2 3) .start (.assign _ 2 3 (by decide)) trivial (by simp)
  have h2 : SureHistory floats [.assign 2 3, .store 1 0 8] (some ⟨3, [[0, 0, 0], [8, 0, 0]]⟩) :=
    .step (.store 1 0 8) h1 (.store ⟨3, [[0, 0, 0], [0, 0, 0]]⟩ 1 0 8 [0, 0, 0] rfl (by decide)) trivial (by simp)
  have h3 : SureHistory floats [.assign 2 3, .store 1 0 8, .store 1 2 9] (some ⟨3, [[0, 0, 0], [8, 0, 9]]⟩) :=
    .step (.store 1 2 9) h2 (.store ⟨3, [[0, 0, 0], [8, 0, 0]]⟩ 1 2 9 [8, 0, 0] rfl (by decide)) trivial (by simp)
  have g : ∀ (t : Table) (n : Nat), Granted floats t n always := fun _ _ => Or.inr fun _ _ => rfl
  refine .step (.resize 1 always) h3 (.resize ⟨3, [[0, 0, 0], [8, 0, 9]]⟩ 1 always (g _ _)) (Or.inr ⟨rfl, g _ _⟩) ?_
  rintro s n ans _ (h | h)
  · cases h
  · cases h; exact g s 1

example : ∃ b, run floats (empty floats) [.assign 2 3, .store 1 0 8, .store 1 2 9, .resize 1 always] = some b ∧
    between floats b 1 = some [8] := by
  obtain ⟨b, h1, h2⟩ := between_partial _ _ _ cut_history
  exact ⟨b, h1, h2 1⟩

example : ((run floats (empty floats) [.assign 2 3, .store 1 0 8, .store 1 2 9, .resize 1 always]).bind (store floats · 1 1 5)).isSome =
    false := by
  rw [Bool.eq_false_iff, Ne, store_within _ _ _ cut_history]
  decide

example : ∃ b, run files (empty files) loading = some b ∧ look files b 1 (-1) = some 0 ∧ look files b 0 3 = some 0 := by
  obtain ⟨b, h1, _, h2⟩ := file_margins_partial _ _ loading_history
  exact ⟨b, h1, (h2 1 [-4, 0, 0] rfl (-1)).1 (by decide) (by decide), (h2 0 [0, 0, 7] rfl 3).2 (by decide) (by decide)⟩

/-- C152 is violated when frames are taken away from a buffer with space after the frames: the old samples stay there, are read by
whoever looks past the end, and come back when the buffer grows again. -/
theorem cut_violated :
    (run files (empty files) [.assign 1 3, .store 0 2 7, .resize 1 always]).bind (look files · 0 2) = some 7 ∧
      (run files (empty files) [.assign 1 3, .store 0 2 7, .resize 1 always, .resize 3 always]).bind (span files · 0) =
        some [0, 0, 7] := by decide +kernel

/-- C152 is violated when memory for one channel only is granted: a resize to fewer frames that fails has already cut the first channel,
and the span of that channel, still of the old length, goes beyond its memory. -/
theorem failed_cut_violated :
    ((run floats (empty floats) [.assign 2 3]).bind (tryResize floats · 1 firstOnly)).map (·.2) = some false ∧
      ((run floats (empty floats) [.assign 2 3, .tryResize 1 firstOnly]).map (·.frames)) = some 3 ∧
      (run floats (empty floats) [.assign 2 3, .tryResize 1 firstOnly]).bind (span floats · 0) = none := by decide +kernel

/-- C152 is violated for the ends of the channels when a resize to more frames fails: the first channel then has more samples between its
begin and its end than the object has frames. -/
theorem failed_growth_violated :
    (run floats (empty floats) [.assign 2 1, .tryResize 3 firstOnly]).map (·.frames) = some 1 ∧
      (run floats (empty floats) [.assign 2 1, .tryResize 3 firstOnly]).bind (between floats · 0) = some [0, 0, 0] := by decide +kernel

/-- An object that was moved from still counts its channels, and reading one is undefined; `reset` makes it usable. -/
theorem moved_violated :
    (run floats (empty floats) [.assign 2 3, .moveOut]).map (·.channels) = some 2 ∧
      (run floats (empty floats) [.assign 2 3, .moveOut]).bind (span floats · 0) = none := by decide +kernel

end Verif.AudioBuffer
