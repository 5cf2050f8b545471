import Verif.Effects.Model
import Mathlib.Data.List.Basic

/-!
What the loops of the effects do to whole blocks.
-/
namespace Verif.Effects

variable {K : Type}

/-! ### Lists -/

theorem mapAccum_append {σ α β : Type} (step : σ → α → σ × β) (s : σ) (xs ys : List α) :
    mapAccum step s (xs ++ ys) =
      ((mapAccum step (mapAccum step s xs).1 ys).1, (mapAccum step s xs).2 ++ (mapAccum step (mapAccum step s xs).1 ys).2) := by
  induction xs generalizing s with
  | nil => simp [mapAccum]
  | cons x xs ih => simp [mapAccum, ih]

theorem mapAccum_length {σ α β : Type} (step : σ → α → σ × β) (s : σ) (xs : List α) :
    (mapAccum step s xs).2.length = xs.length := by
  induction xs generalizing s with
  | nil => simp [mapAccum]
  | cons x xs ih => simp [mapAccum, ih]

/-! ### Memory -/

theorem write_same {b i : Nat} {l : List K} {m : Mem K} : write b l m b i = (l[i]?).getD (m b i) := by
  simp [write]

theorem write_other {a b i : Nat} {l : List K} {m : Mem K} (h : a ≠ b) : write b l m a i = m a i := by
  simp [write, Function.update_of_ne h]

theorem write_other' {a b : Nat} {l : List K} {m : Mem K} (h : a ≠ b) : write b l m a = m a := by
  funext i
  exact write_other h

theorem write_beyond {b i : Nat} {l : List K} {m : Mem K} (h : l.length ≤ i) : write b l m b i = m b i := by
  rw [write_same, List.getElem?_eq_none h]
  rfl

theorem write_nil {b : Nat} {m : Mem K} : write b [] m = m := by
  funext a i
  by_cases h : a = b
  · subst h
    simp [write_same]
  · exact write_other h

theorem put_write {b n : Nat} {l : List K} {v : K} {m : Mem K} (h : l.length = n) :
    (write b l m).put b n v = write b (l ++ [v]) m := by
  funext a i
  by_cases ha : a = b
  · subst ha
    rw [write_same]
    by_cases hi : i = n
    · subst hi
      simp [Mem.put, ← h]
    · simp only [Mem.put, Function.update_self, Function.update_of_ne hi, write_same]
      rcases Nat.lt_or_gt_of_ne hi with hlt | hgt
      · rw [List.getElem?_append_left (by omega)]
      · rw [List.getElem?_eq_none (by omega), List.getElem?_eq_none (by simp; omega)]
  · simp [Mem.put, Function.update_of_ne ha, write_other ha]

theorem put_other {a b n i : Nat} {v : K} {m : Mem K} (h : a ≠ b) : (m.put b n v) a i = m a i := by
  simp [Mem.put, Function.update_of_ne h]

theorem put_write_comm {a b n : Nat} {l : List K} {v : K} {m : Mem K} (h : a ≠ b) :
    (write b l m).put a n v = write b l (m.put a n v) := by
  funext c i
  by_cases hc : c = b
  · subst hc
    rw [put_other (Ne.symm h), write_same, write_same, put_other (Ne.symm h)]
  · rw [write_other hc]
    by_cases hca : c = a
    · subst hca
      simp [Mem.put, write_other' hc]
    · rw [put_other hca, put_other hca, write_other hc]

theorem write_write {b : Nat} {l l' : List K} {m : Mem K} (h : l.length = l'.length) :
    write b l' (write b l m) = write b l' m := by
  funext a i
  by_cases ha : a = b
  · subst ha
    rw [write_same, write_same, write_same]
    by_cases hi : i < l'.length
    · simp [List.getElem?_eq_getElem hi]
    · rw [List.getElem?_eq_none (by omega), List.getElem?_eq_none (by omega)]
      rfl
  · rw [write_other ha, write_other ha, write_other ha]

theorem write_comm {a b : Nat} {l l' : List K} {m : Mem K} (h : a ≠ b) :
    write a l (write b l' m) = write b l' (write a l m) := by
  funext c i
  by_cases hc : c = b
  · subst hc
    rw [write_other (Ne.symm h), write_same, write_same, write_other (Ne.symm h)]
  · by_cases hca : c = a
    · subst hca
      rw [write_same, write_other hc, write_other hc, write_same]
    · rw [write_other hca, write_other hc, write_other hc, write_other hca]

theorem read_length (n b : Nat) (m : Mem K) : (read n b m).length = n := by simp [read]

theorem read_succ (n b : Nat) (m : Mem K) : read (n + 1) b m = read n b m ++ [m b n] := by
  simp [read, List.range_succ]

theorem read_write_same {n b : Nat} {l : List K} {m : Mem K} (h : l.length = n) : read n b (write b l m) = l := by
  apply List.ext_getElem
  · simp [read, h]
  · intro i h1 h2
    simp [read, write_same, List.getElem?_eq_getElem h2]

theorem read_write_other {n a b : Nat} {l : List K} {m : Mem K} (h : a ≠ b) : read n a (write b l m) = read n a m := by
  simp [read, write_other' h]

theorem write_read_self {n b : Nat} {m : Mem K} : write b (read n b m) m = m := by
  funext a i
  by_cases h : a = b
  · subst h
    rw [write_same]
    by_cases hi : i < n
    · simp [read, hi]
    · rw [List.getElem?_eq_none (by simp [read]; omega)]
      rfl
  · exact write_other h

/-- A loop over a channel is the computation on its samples, in place or not. -/
theorem channel_eq {σ : Type} (step : σ → K → σ × K) (inp out n : Nat) (s : σ) (m : Mem K) :
    channel step inp out n s m =
      ((mapAccum step s (read n inp m)).1, write out (mapAccum step s (read n inp m)).2 m) := by
  induction n with
  | zero => simp [channel, loop, read, mapAccum, write_nil]
  | succ n ih =>
    have hl : (mapAccum step s (read n inp m)).2.length = n := by rw [mapAccum_length, read_length]
    have hr : (channel step inp out n s m).2 inp n = m inp n := by
      rw [ih]
      by_cases h : inp = out
      · subst h
        exact write_beyond (by omega)
      · exact write_other h
    have e : channel step inp out (n + 1) s m =
        ((step (channel step inp out n s m).1 ((channel step inp out n s m).2 inp n)).1,
          (channel step inp out n s m).2.put out n
            (step (channel step inp out n s m).1 ((channel step inp out n s m).2 inp n)).2) := rfl
    rw [e, hr, ih, read_succ, mapAccum_append]
    simp only [mapAccum]
    rw [put_write hl]

/-- The stereo frames of two buffers. -/
def frames (n a b : Nat) (m : Mem K) : List (K × K) := (read n a m).zip (read n b m)

/-- Writing stereo frames to two buffers. -/
def writeFrames (a b : Nat) (l : List (K × K)) (m : Mem K) : Mem K :=
  write b (l.map Prod.snd) (write a (l.map Prod.fst) m)

theorem frames_length (n a b : Nat) (m : Mem K) : (frames n a b m).length = n := by simp [frames, read]

theorem frames_succ (n a b : Nat) (m : Mem K) : frames (n + 1) a b m = frames n a b m ++ [(m a n, m b n)] := by
  rw [frames, read_succ, read_succ, List.zip_append (by simp [read_length])]
  rfl

theorem frames_fst (n a b : Nat) (m : Mem K) : (frames n a b m).map Prod.fst = read n a m := by
  rw [frames, List.map_fst_zip]
  simp [read_length]

theorem frames_snd (n a b : Nat) (m : Mem K) : (frames n a b m).map Prod.snd = read n b m := by
  rw [frames, List.map_snd_zip]
  simp [read_length]

theorem both_eq {σ : Type} (step : σ → K × K → σ × (K × K)) (p : Ports) (h : p.outL ≠ p.outR) (n : Nat) (s : σ) (m : Mem K) :
    both step p n s m =
      ((mapAccum step s (frames n p.inL p.inR m)).1,
        writeFrames p.outL p.outR (mapAccum step s (frames n p.inL p.inR m)).2 m) := by
  induction n with
  | zero => simp [both, loop, frames, read, mapAccum, writeFrames, write_nil]
  | succ n ih =>
    have hl : (mapAccum step s (frames n p.inL p.inR m)).2.length = n := by rw [mapAccum_length, frames_length]
    have beyond : ∀ b, (both step p n s m).2 b n = m b n := by
      intro b
      rw [ih]
      simp only [writeFrames]
      have e1 : ∀ b, write p.outL ((mapAccum step s (frames n p.inL p.inR m)).2.map Prod.fst) m b n = m b n := by
        intro b
        by_cases hb : b = p.outL
        · subst hb
          exact write_beyond (by simp [hl])
        · exact write_other hb
      by_cases hb : b = p.outR
      · subst hb
        rw [write_beyond (by simp [hl]), e1]
      · rw [write_other hb, e1]
    have e : both step p (n + 1) s m =
        ((step (both step p n s m).1 ((both step p n s m).2 p.inL n, (both step p n s m).2 p.inR n)).1,
          (((both step p n s m).2.put p.outL n
            (step (both step p n s m).1 ((both step p n s m).2 p.inL n, (both step p n s m).2 p.inR n)).2.1).put p.outR n
            (step (both step p n s m).1 ((both step p n s m).2 p.inL n, (both step p n s m).2 p.inR n)).2.2)) := rfl
    rw [e, beyond, beyond, ih, frames_succ, mapAccum_append]
    simp only [mapAccum, writeFrames, List.map_append, List.map_cons, List.map_nil]
    rw [put_write_comm h, put_write (by simp [hl]), put_write (by simp [hl])]

theorem channels_eq {σ : Type} (step : σ → K → σ × K) (p : Ports) (h : p.inR ≠ p.outL) (n : Nat) (s : σ × σ) (m : Mem K) :
    channels step p n s m =
      (((mapAccum step s.1 (read n p.inL m)).1, (mapAccum step s.2 (read n p.inR m)).1),
        write p.outR (mapAccum step s.2 (read n p.inR m)).2 (write p.outL (mapAccum step s.1 (read n p.inL m)).2 m)) := by
  simp only [channels, channel_eq]
  rw [read_write_other h]

/-! ### Resamplers -/

section
variable [Field K]

theorem upList_append (coefs : List K) (mem : List (Stage K)) (xs ys : List K) :
    upList coefs mem (xs ++ ys) =
      ((upList coefs (upList coefs mem xs).1 ys).1,
        (upList coefs mem xs).2 ++ (upList coefs (upList coefs mem xs).1 ys).2) := by
  induction xs generalizing mem with
  | nil => simp [upList]
  | cons x xs ih => simp [upList, ih]

theorem upList_length (coefs : List K) (mem : List (Stage K)) (xs : List K) :
    (upList coefs mem xs).2.length = 2 * xs.length := by
  induction xs generalizing mem with
  | nil => simp [upList]
  | cons x xs ih => simp [upList, ih]; omega

theorem downList_append (coefs : List K) (k : Nat) (mem : List (Stage K)) (xs ys : List K) (h : xs.length = 2 * k) :
    downList coefs mem (xs ++ ys) =
      ((downList coefs (downList coefs mem xs).1 ys).1,
        (downList coefs mem xs).2 ++ (downList coefs (downList coefs mem xs).1 ys).2) := by
  induction k generalizing mem xs with
  | zero =>
    have : xs = [] := List.length_eq_zero_iff.mp h
    subst this
    simp [downList]
  | succ k ih =>
    match xs, h with
    | a :: b :: xs, h =>
      have h' : xs.length = 2 * k := by simp at h; omega
      simp [downList, ih _ xs h']
    | [_], h => simp at h; omega
    | [], h => simp at h

theorem downList_length (coefs : List K) (k : Nat) (mem : List (Stage K)) (xs : List K) (h : xs.length = 2 * k) :
    (downList coefs mem xs).2.length = k := by
  induction k generalizing mem xs with
  | zero =>
    have : xs = [] := List.length_eq_zero_iff.mp h
    subst this
    simp [downList]
  | succ k ih =>
    match xs, h with
    | a :: b :: xs, h =>
      have h' : xs.length = 2 * k := by simp at h; omega
      simp [downList, ih _ xs h']
    | [_], h => simp at h; omega
    | [], h => simp at h

end

end Verif.Effects
