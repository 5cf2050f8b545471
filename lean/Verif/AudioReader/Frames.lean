import Verif.AudioReader.Model
import Mathlib.Tactic.Linarith
import Mathlib.Tactic.Ring

/-!
# Reversing interleaved frames, index by index
-/

namespace Verif.AudioReader

variable {α : Type}

theorem idx_lt {n ch q c : Nat} (hq : q < n) (hc : c < ch) : q * ch + c < n * ch := by
  have : (q + 1) * ch ≤ n * ch := Nat.mul_le_mul_right _ hq
  rw [Nat.add_mul] at this
  omega

theorem idx_ge {n ch q c : Nat} (hq : n ≤ q) : n * ch ≤ q * ch + c := by
  have : n * ch ≤ q * ch := Nat.mul_le_mul_right _ hq
  omega

theorem idx_inj {ch a b c d : Nat} (hc : c < ch) (hd : d < ch) :
    a * ch + c = b * ch + d ↔ a = b ∧ c = d := by
  constructor
  · intro h
    rcases Nat.lt_trichotomy a b with hab | hab | hab
    · have := idx_lt (n := b) hab hc
      omega
    · subst hab
      exact ⟨rfl, by omega⟩
    · have := idx_lt (n := a) hab hd
      omega
  · rintro ⟨rfl, rfl⟩
    rfl

theorem swapAt_length (d : List α) (p q : Nat) : (swapAt d p q).length = d.length := by
  unfold swapAt
  split <;> simp

theorem swapAt_get (d : List α) {p q : Nat} (hp : p < d.length) (hq : q < d.length) (k : Nat) :
    (swapAt d p q)[k]? = if k = p then d[q]? else if k = q then d[p]? else d[k]? := by
  unfold swapAt
  rw [List.getElem?_eq_getElem hp, List.getElem?_eq_getElem hq]
  simp only []
  by_cases h1 : k = q
  · subst h1
    rw [List.getElem?_set_self (by simpa using hq)]
    by_cases h2 : k = p
    · subst h2
      simp
    · simp [h2]
  · rw [List.getElem?_set_ne (by omega)]
    by_cases h2 : k = p
    · subst h2
      rw [List.getElem?_set_self hp]
      simp
    · rw [List.getElem?_set_ne (by omega)]
      simp [h1, h2]

theorem swapChannels_length (ch : Nat) (d : List α) (i j m : Nat) :
    (swapChannels ch d i j m).length = d.length := by
  induction m with
  | zero => rfl
  | succ m ih => rw [swapChannels, swapAt_length, ih]

theorem swapChannels_get (ch : Nat) (d : List α) {n i j : Nat} (hlen : n * ch ≤ d.length)
    (hi : i < n) (hj : j < n) (hij : i ≠ j) (m : Nat) (hm : m ≤ ch) (q c : Nat) (hc : c < ch) :
    (swapChannels ch d i j m)[q * ch + c]? =
      if c < m then
        (if q = i then d[j * ch + c]? else if q = j then d[i * ch + c]? else d[q * ch + c]?)
      else d[q * ch + c]? := by
  induction m generalizing q c with
  | zero => simp [swapChannels]
  | succ m ih =>
    have hm' : m < ch := hm
    have h1 := idx_lt hi hm'
    have h2 := idx_lt hj hm'
    rw [swapChannels, swapAt_get _ (by rw [swapChannels_length]; omega)
      (by rw [swapChannels_length]; omega)]
    rw [ih (by omega) q c hc, ih (by omega) i m hm', ih (by omega) j m hm']
    simp only [idx_inj hc hm', Nat.lt_irrefl, if_false]
    by_cases hcm : c = m
    · subst hcm
      simp
    · have : (c < m + 1) ↔ (c < m) := by omega
      simp [hcm, this]

theorem reverseLoop_length (ch frames : Nat) (d : List α) (k : Nat) :
    (reverseLoop ch frames d k).length = d.length := by
  induction k with
  | zero => rfl
  | succ k ih => rw [reverseLoop, swapChannels_length, ih]

theorem reverseLoop_get (ch frames : Nat) (d : List α) (hlen : frames * ch ≤ d.length)
    (k : Nat) (hk : k ≤ frames / 2) (q c : Nat) (hq : q < frames) (hc : c < ch) :
    (reverseLoop ch frames d k)[q * ch + c]? =
      if q < k ∨ frames - 1 - q < k then d[(frames - 1 - q) * ch + c]? else d[q * ch + c]? := by
  induction k generalizing q c with
  | zero => simp [reverseLoop]
  | succ k ih =>
    rw [reverseLoop, swapChannels_get ch _ (n := frames) (by rw [reverseLoop_length]; exact hlen)
      (by omega) (by omega) (by omega) ch (Nat.le_refl _) q c hc, if_pos hc,
      ih (by omega) (frames - 1 - k) c (by omega) hc, ih (by omega) k c (by omega) hc,
      ih (by omega) q c hq hc]
    by_cases h1 : q = k
    · subst h1
      rw [if_pos rfl, if_neg (by omega), if_pos (by omega)]
    · rw [if_neg h1]
      by_cases h2 : q = frames - 1 - k
      · have h3 : frames - 1 - q = k := by omega
        rw [if_pos h2, if_neg (by omega), if_pos (by omega), h3]
      · rw [if_neg h2]
        by_cases h3 : q < k ∨ frames - 1 - q < k
        · rw [if_pos h3, if_pos (by omega)]
        · rw [if_neg h3, if_neg (by omega)]

theorem asFrames_length (ch : Nat) (d : List α) (n : Nat) : (asFrames ch d n).length = n := by
  induction n generalizing d with
  | zero => rfl
  | succ n ih => simp [asFrames, ih]

theorem asFrames_get (ch : Nat) (d : List α) (n q : Nat) (hq : q < n) :
    (asFrames ch d n)[q]? = some ((d.drop (q * ch)).take ch) := by
  induction n generalizing d q with
  | zero => omega
  | succ n ih =>
    cases q with
    | zero => simp [asFrames]
    | succ q =>
      rw [asFrames, List.getElem?_cons_succ, ih (d.drop ch) q (by omega), List.drop_drop]
      rw [Nat.add_mul, Nat.one_mul, Nat.add_comm]

theorem flatten_length_of (ch : Nat) (L : List (List α)) (h : ∀ l ∈ L, l.length = ch) :
    L.flatten.length = L.length * ch := by
  induction L with
  | nil => simp
  | cons l L ih =>
    rw [List.flatten_cons, List.length_append, ih (fun x hx => h x (List.mem_cons_of_mem _ hx)),
      h l List.mem_cons_self, List.length_cons, Nat.add_mul]
    omega

theorem flatten_get (ch : Nat) (L : List (List α)) (h : ∀ l ∈ L, l.length = ch) (q c : Nat)
    (hc : c < ch) : L.flatten[q * ch + c]? = (L[q]?).bind fun l => l[c]? := by
  induction L generalizing q with
  | nil => simp
  | cons l L ih =>
    have hl := h l List.mem_cons_self
    cases q with
    | zero =>
      rw [List.flatten_cons, Nat.zero_mul, Nat.zero_add, List.getElem?_append_left (by omega)]
      simp
    | succ q =>
      rw [List.flatten_cons, List.getElem?_append_right (by rw [hl, Nat.add_mul]; omega)]
      have : (q + 1) * ch + c - l.length = q * ch + c := by rw [hl, Nat.add_mul]; omega
      rw [this, ih (fun x hx => h x (List.mem_cons_of_mem _ hx))]
      simp

theorem asFrames_mem (ch : Nat) (d : List α) (n : Nat) (hlen : n * ch ≤ d.length) :
    ∀ l ∈ asFrames ch d n, l.length = ch := by
  intro l hl
  obtain ⟨q, hq⟩ := List.mem_iff_getElem?.1 hl
  have hqn : q < n := by
    by_contra hge
    rw [List.getElem?_eq_none (by rw [asFrames_length]; omega)] at hq
    cases hq
  rw [asFrames_get ch d n q hqn] at hq
  cases hq
  have : (q + 1) * ch ≤ n * ch := Nat.mul_le_mul_right _ hqn
  rw [Nat.add_mul] at this
  simp only [List.length_take, List.length_drop]
  omega

/-- `reverse_frames` keeps the size of the buffer. -/
theorem reverseFrames_length (d : List α) (n ch : Nat) (hlen : d.length = n * ch) :
    (reverseFrames d n ch).length = n * ch := by
  unfold reverseFrames
  split
  · rw [List.length_append, flatten_length_of ch _ (fun l hl =>
      asFrames_mem ch d n (by omega) l (List.mem_reverse.1 hl)), List.length_reverse,
      asFrames_length]
    simp only [List.length_drop]
    omega
  · rw [reverseLoop_length, hlen]

/-- Frame `q` of the reversed buffer is frame `n − 1 − q` of the original, channel by channel. -/
theorem reverseFrames_get (d : List α) (n ch : Nat) (hlen : d.length = n * ch) (q c : Nat)
    (hq : q < n) (hc : c < ch) :
    (reverseFrames d n ch)[q * ch + c]? = d[(n - 1 - q) * ch + c]? := by
  unfold reverseFrames
  split
  · have hmem : ∀ l ∈ (asFrames ch d n).reverse, l.length = ch := fun l hl =>
      asFrames_mem ch d n (by omega) l (List.mem_reverse.1 hl)
    rw [List.getElem?_append_left (by
      rw [flatten_length_of ch _ hmem, List.length_reverse, asFrames_length]
      exact idx_lt hq hc), flatten_get ch _ hmem q c hc,
      List.getElem?_reverse (by rw [asFrames_length]; exact hq), asFrames_length,
      asFrames_get ch d n _ (by omega)]
    simp only [Option.bind_some]
    rw [List.getElem?_take_of_lt hc, List.getElem?_drop]
  · rw [reverseLoop_get ch n d (by omega) _ (Nat.le_refl _) q c hq hc]
    by_cases h : q < n / 2 ∨ n - 1 - q < n / 2
    · rw [if_pos h]
    · rw [if_neg h]
      have : n - 1 - q = q := by omega
      rw [this]

end Verif.AudioReader
