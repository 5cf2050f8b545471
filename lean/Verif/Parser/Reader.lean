import Verif.Parser.Model

/-! Lemmas about the reader: what it has taken, what is left, where it is. -/
namespace Verif.Parser

/-- The characters the source still yields. -/
def Reader.rest (r : Reader) : Text := if r.signed then r.stream.filter (fun c => c != eofByte) else r.stream

/-- The characters to come. -/
def Reader.left (r : Reader) : Text := r.accum ++ r.rest

/-- No byte of the source looks like the end. -/
def Plain (r : Reader) : Prop := r.signed = true → eofByte ∉ r.stream

/-- Line, column, and the lengths of the lines before, after some characters. -/
def position (done : Text) : Nat × Nat × List Nat :=
  done.foldl (fun p c => if c = '\n' then (p.1 + 1, 0, p.2.2 ++ [p.2.1]) else (p.1, p.2.1 + 1, p.2.2)) (0, 0, [])

/-- The reader is right after the characters `done`. -/
def Pos (done : Text) (r : Reader) : Prop := (r.line, r.col, r.cols) = position done ∧ r.bad = false

theorem position_snoc (done : Text) (c : Char) : position (done ++ [c]) =
    if c = '\n' then ((position done).1 + 1, 0, (position done).2.2 ++ [(position done).2.1])
    else ((position done).1, (position done).2.1 + 1, (position done).2.2) := by
  unfold position
  rw [List.foldl_append]
  rfl

theorem snocInd {α : Type} {P : List α → Prop} (l : List α) (hnil : P []) (hsnoc : ∀ xs x, P xs → P (xs ++ [x])) : P l := by
  have h : ∀ (k : List α), P k.reverse := by
    intro k
    induction k with
    | nil => exact hnil
    | cons a t ih => rw [List.reverse_cons]; exact hsnoc _ _ ih
  have := h l.reverse
  rwa [List.reverse_reverse] at this

theorem position_cols (done : Text) : (position done).2.2.length = (position done).1 := by
  induction done using snocInd with
  | hnil => rfl
  | hsnoc xs x ih => rw [position_snoc]; split <;> simp [ih]

theorem addLoc_fields (r : Reader) (c : Char) : (addLoc r c).path = r.path ∧ (addLoc r c).signed = r.signed ∧ (addLoc r c).accum = r.accum ∧
    (addLoc r c).stream = r.stream := by
  unfold addLoc; split <;> simp

theorem removeLoc_fields (r : Reader) (c : Char) : (removeLoc r c).path = r.path ∧ (removeLoc r c).signed = r.signed ∧
    (removeLoc r c).accum = r.accum ∧ (removeLoc r c).stream = r.stream := by
  unfold removeLoc
  split
  · split
    · simp
    · split <;> simp
  · split <;> simp

theorem addLoc_pos {d : Text} {r : Reader} (h : Pos d r) (c : Char) : Pos (d ++ [c]) (addLoc r c) := by
  obtain ⟨h1, h2⟩ := h
  constructor
  · rw [position_snoc, ← h1]
    unfold addLoc
    split <;> rfl
  · unfold addLoc; split <;> exact h2

theorem removeLoc_pos {d : Text} {r : Reader} {c : Char} (h : Pos (d ++ [c]) r) : Pos d (removeLoc r c) := by
  obtain ⟨h1, h2⟩ := h
  rw [position_snoc] at h1
  have hl := position_cols d
  unfold removeLoc
  by_cases hc : c = '\n'
  · rw [if_pos hc] at h1
    simp only [Prod.mk.injEq] at h1
    obtain ⟨e1, e2, e3⟩ := h1
    rw [if_pos hc, if_neg (by omega), e1, e3]
    have : ((position d).2.2 ++ [(position d).2.1])[(position d).1 + 1 - 1]? = some (position d).2.1 := by
      rw [show (position d).1 + 1 - 1 = (position d).2.2.length by omega]
      simp
    rw [this]
    refine ⟨?_, h2⟩
    simp
  · rw [if_neg hc] at h1
    simp only [Prod.mk.injEq] at h1
    obtain ⟨e1, e2, e3⟩ := h1
    rw [if_neg hc, if_neg (by omega)]
    refine ⟨?_, h2⟩
    simp only [e1, e2, e3]
    rfl

/-- `r1` is the reader `r` after taking the characters `s`. -/
structure Adv (r : Reader) (s : Text) (r1 : Reader) : Prop where
  path : r1.path = r.path
  signed : r1.signed = r.signed
  left : r.left = s ++ r1.left
  size : r1.size + s.length ≤ r.size
  plain : Plain r → Plain r1
  pos : ∀ d, Pos d r → Pos (d ++ s) r1

theorem Adv.refl (r : Reader) : Adv r [] r := ⟨rfl, rfl, rfl, by simp, id, fun d h => by simpa using h⟩

theorem Adv.trans {r r1 r2 : Reader} {s t : Text} (h : Adv r s r1) (k : Adv r1 t r2) : Adv r (s ++ t) r2 := by
  refine ⟨k.path.trans h.path, k.signed.trans h.signed, ?_, ?_, fun p => k.plain (h.plain p), ?_⟩
  · rw [h.left, k.left, List.append_assoc]
  · have h1 := h.size; have h2 := k.size
    rw [List.length_append]; omega
  · intro d hd
    rw [← List.append_assoc]
    exact k.pos _ (h.pos d hd)

theorem Adv.trans_nil {r r1 r2 : Reader} {s : Text} (h : Adv r s r1) (k : Adv r1 [] r2) : Adv r s r2 := by
  have := h.trans k; rwa [List.append_nil] at this

theorem Adv.nil_trans {r r1 r2 : Reader} {s : Text} (h : Adv r [] r1) (k : Adv r1 s r2) : Adv r s r2 := h.trans k

theorem Adv.le {r r1 : Reader} {s : Text} (h : Adv r s r1) : r1.size ≤ r.size := by have := h.size; omega

theorem getChar_adv (r : Reader) : Adv r (getChar r).1.toList (getChar r).2 := by
  unfold getChar
  split
  · rename_i c rest ha
    have hf := addLoc_fields { r with accum := rest } c
    refine ⟨hf.1, hf.2.1, ?_, ?_, ?_, ?_⟩
    · simp [Reader.left, Reader.rest, hf, ha]
    · simp [Reader.size, hf, ha]; omega
    · intro hp; unfold Plain at hp ⊢; rw [hf.2.1, hf.2.2.2]; exact hp
    · intro d hd; exact addLoc_pos (r := { r with accum := rest }) hd c
  · rename_i ha
    split
    · exact Adv.refl r
    · rename_i c rest hs
      split
      · rename_i hc
        refine ⟨rfl, rfl, ?_, ?_, ?_, ?_⟩
        · simp [Reader.left, Reader.rest, ha, hs, hc.1, hc.2]
        · simp [Reader.size, hs]
        · intro hp hsg hm
          exact hp hc.1 (by rw [hs]; exact List.mem_cons_of_mem _ hm)
        · intro d hd; simpa [Pos] using hd
      · rename_i hc
        have hf := addLoc_fields { r with stream := rest } c
        refine ⟨hf.1, hf.2.1, ?_, ?_, ?_, ?_⟩
        · by_cases hsg : r.signed = true
          · have hne : c ≠ eofByte := fun e => hc ⟨hsg, e⟩
            simp only [Reader.left, Reader.rest, hf.2.1, hf.2.2.1, hf.2.2.2]
            simp [ha, hs, hsg, hne]
          · simp only [Reader.left, Reader.rest, hf.2.1, hf.2.2.1, hf.2.2.2]
            simp [ha, hs, hsg]
        · simp [Reader.size, hf, hs]; omega
        · intro hp hsg hm
          rw [hf.2.1] at hsg
          rw [hf.2.2.2] at hm
          exact hp hsg (by rw [hs]; exact List.mem_cons_of_mem _ hm)
        · intro d hd; exact addLoc_pos (r := { r with stream := rest }) hd c

theorem getChar_plain {r : Reader} (hp : Plain r) : (getChar r).1 = r.left.head? := by
  unfold getChar
  split
  · rename_i c rest ha; simp [Reader.left, ha]
  · rename_i ha
    split
    · rename_i hs; simp [Reader.left, Reader.rest, ha, hs]
    · rename_i c rest hs
      have hne : ¬ (r.signed = true ∧ c = eofByte) := by
        rintro ⟨h1, h2⟩
        exact hp h1 (by rw [hs, h2]; simp)
      rw [if_neg hne]
      by_cases hsg : r.signed = true
      · have : c ≠ eofByte := fun e => hne ⟨hsg, e⟩
        simp [Reader.left, Reader.rest, ha, hs, hsg, this]
      · simp [Reader.left, Reader.rest, ha, hs, hsg]

theorem removes_fields (s : Text) (r : Reader) : (s.foldr (fun c r => removeLoc r c) r).path = r.path ∧
    (s.foldr (fun c r => removeLoc r c) r).signed = r.signed ∧ (s.foldr (fun c r => removeLoc r c) r).accum = r.accum ∧
    (s.foldr (fun c r => removeLoc r c) r).stream = r.stream := by
  induction s with
  | nil => simp
  | cons c s ih =>
    have := removeLoc_fields (s.foldr (fun c r => removeLoc r c) r) c
    simp only [List.foldr_cons, this, ih, and_self]

theorem removes_pos (s : Text) : ∀ (d : Text) (r : Reader), Pos (d ++ s) r → Pos d (s.foldr (fun c r => removeLoc r c) r) := by
  induction s with
  | nil => intro d r h; simpa using h
  | cons c s ih =>
    intro d r h
    simp only [List.foldr_cons]
    apply removeLoc_pos
    apply ih
    simpa using h

/-- Putting back the last characters taken. -/
theorem Adv.putBack {r r1 : Reader} {s t : Text} (h : Adv r (s ++ t) r1) : Adv r s (putBackChars r1 t) := by
  have hf := removes_fields t { r1 with accum := t ++ r1.accum }
  unfold putBackChars
  refine ⟨hf.1.trans h.path, hf.2.1.trans h.signed, ?_, ?_, ?_, ?_⟩
  · rw [h.left]
    simp only [Reader.left, Reader.rest, hf, List.append_assoc]
  · have := h.size
    simp only [Reader.size, hf, List.length_append] at this ⊢
    omega
  · intro hp
    have := h.plain hp
    unfold Plain at this ⊢
    rw [hf.2.1, hf.2.2.2]; exact this
  · intro d hd
    have := h.pos d hd
    apply removes_pos
    rw [← List.append_assoc] at this
    exact this

theorem Adv.putBack1 {r r1 : Reader} {s : Text} {c : Char} (h : Adv r (s ++ [c]) r1) : Adv r s (putBackChar r1 c) := h.putBack

theorem Adv.putBack_all {r r1 : Reader} {s : Text} (h : Adv r s r1) : Adv r [] (putBackChars r1 s) := Adv.putBack (s := []) h

theorem putBack_accum (r : Reader) (c : Char) : (putBackChar r c).accum = c :: r.accum := by
  unfold putBackChar putBackChars
  exact (removes_fields [c] { r with accum := [c] ++ r.accum }).2.2.1

theorem peekChar_adv (r : Reader) : Adv r [] (peekChar r).2 := by
  unfold peekChar
  split
  · exact Adv.refl r
  · have h := getChar_adv r
    rcases hg : getChar r with ⟨_ | c, r1⟩
    · rw [hg] at h; exact h
    · rw [hg] at h; exact Adv.putBack1 (s := []) h

/-- What was peeked is what is taken next. -/
theorem peek_get {r : Reader} {c : Char} (h : (peekChar r).1 = some c) : (getChar (peekChar r).2).1 = some c := by
  cases ha : r.accum with
  | cons d rest =>
    simp only [peekChar, ha] at h ⊢
    unfold getChar
    rw [ha]; exact h
  | nil =>
    simp only [peekChar, ha] at h ⊢
    rcases hg : getChar r with ⟨_ | d, r1⟩
    · rw [hg] at h; simp at h
    · rw [hg] at h
      simp only [Option.some.injEq] at h
      simp only
      unfold getChar
      rw [putBack_accum, h]

theorem peek_plain {r : Reader} (hp : Plain r) : (peekChar r).1 = r.left.head? := by
  unfold peekChar
  split
  · rename_i c rest ha; simp [Reader.left, ha]
  · have := getChar_plain hp
    rcases hg : getChar r with ⟨_ | d, r1⟩
    · rw [hg] at this; exact this
    · rw [hg] at this; exact this

/-- Taking what was peeked. -/
theorem peek_take {r : Reader} {c : Char} (h : (peekChar r).1 = some c) : Adv r [c] (getChar (peekChar r).2).2 := by
  have h1 := peekChar_adv r
  have h2 := getChar_adv (peekChar r).2
  rw [peek_get h] at h2
  exact h1.trans h2

theorem extractLoop_adv (p : Char → Bool) (n : Nat) : ∀ r, Adv r (extractLoop p n r).1 (extractLoop p n r).2 ∧
    ∀ c ∈ (extractLoop p n r).1, p c = true := by
  induction n with
  | zero => intro r; exact ⟨Adv.refl r, by simp [extractLoop]⟩
  | succ n ih =>
    intro r
    unfold extractLoop
    have h := getChar_adv r
    rcases hg : getChar r with ⟨_ | c, r1⟩
    · rw [hg] at h; exact ⟨h, by simp⟩
    · rw [hg] at h
      simp only
      by_cases hc : p c = true
      · rw [if_pos hc]
        refine ⟨h.trans (ih r1).1, ?_⟩
        intro d hd
        rcases List.mem_cons.mp hd with rfl | hd
        · exact hc
        · exact (ih r1).2 d hd
      · rw [if_neg hc]
        exact ⟨Adv.putBack1 (s := []) h, by simp⟩

theorem extract_adv (p : Char → Bool) (r : Reader) : Adv r (extractWhile p r).1 (extractWhile p r).2 := (extractLoop_adv p _ r).1

theorem extract_all (p : Char → Bool) (r : Reader) : ∀ c ∈ (extractWhile p r).1, p c = true := (extractLoop_adv p _ r).2

theorem size_plain {r : Reader} (hp : Plain r) : r.size = r.left.length := by
  unfold Reader.size Reader.left Reader.rest
  split
  · rename_i hs
    rw [List.filter_eq_self.mpr]
    · simp
    · intro a ha
      have : a ≠ eofByte := fun e => hp hs (e ▸ ha)
      simp [this]
  · simp

theorem extractLoop_plain (p : Char → Bool) (n : Nat) : ∀ r, Plain r → r.left.length < n → (extractLoop p n r).1 = r.left.takeWhile p := by
  induction n with
  | zero => intro r _ h; omega
  | succ n ih =>
    intro r hp hn
    unfold extractLoop
    have h := getChar_adv r
    have hc := getChar_plain hp
    rcases hg : getChar r with ⟨_ | c, r1⟩
    · rw [hg] at hc
      simp only at hc
      have : r.left = [] := by
        cases hl : r.left with
        | nil => rfl
        | cons a t => rw [hl] at hc; simp at hc
      simp [this]
    · rw [hg] at h hc
      have hl := h.left
      simp only [Option.toList] at hl
      simp only
      rw [hl]
      by_cases hpc : p c = true
      · rw [if_pos hpc, ih r1 (h.plain hp) (by rw [hl] at hn; simp at hn; omega)]
        simp [hpc]
      · rw [if_neg hpc]; simp [hpc]

theorem extract_plain (p : Char → Bool) {r : Reader} (hp : Plain r) : (extractWhile p r).1 = r.left.takeWhile p :=
  extractLoop_plain p _ r hp (by rw [size_plain hp]; omega)

theorem takeWhile_drop (p : Char → Bool) {l a b : Text} (h : l = a ++ b) (ha : a = l.takeWhile p) : b = l.dropWhile p := by
  have := List.takeWhile_append_dropWhile (p := p) (l := l)
  rw [← ha] at this
  rw [h] at this ⊢
  exact (List.append_cancel_left this).symm

theorem extract_plain_left (p : Char → Bool) {r : Reader} (hp : Plain r) : (extractWhile p r).2.left = r.left.dropWhile p :=
  takeWhile_drop p (extract_adv p r).left (extract_plain p hp)

theorem skipLoop_adv (p : Char → Bool) (n : Nat) : ∀ r, ∃ s, Adv r s (skipLoop p n r).2 ∧ (∀ c ∈ s, p c = true) ∧
    s.length = (skipLoop p n r).1 := by
  induction n with
  | zero => intro r; exact ⟨[], Adv.refl r, by simp, rfl⟩
  | succ n ih =>
    intro r
    unfold skipLoop
    have h := peekChar_adv r
    rcases hg : peekChar r with ⟨_ | c, r1⟩
    · rw [hg] at h; exact ⟨[], h, by simp, rfl⟩
    · have ht := peek_take (r := r) (c := c) (by rw [hg])
      rw [hg] at h ht
      simp only at ht
      simp only
      by_cases hc : p c = true
      · rw [if_pos hc]
        obtain ⟨s, h1, h2, h3⟩ := ih (getChar r1).2
        refine ⟨[c] ++ s, ht.trans h1, ?_, by simp [h3]⟩
        intro d hd
        rcases List.mem_cons.mp hd with rfl | hd
        · exact hc
        · exact h2 d hd
      · rw [if_neg hc]
        exact ⟨[], h, by simp, rfl⟩

theorem skip_adv (p : Char → Bool) (r : Reader) : ∃ s, Adv r s (skipChars p r).2 ∧ (∀ c ∈ s, p c = true) ∧ s.length = (skipChars p r).1 :=
  skipLoop_adv p _ r

theorem skipLoop_plain (p : Char → Bool) (n : Nat) : ∀ r, Plain r → r.left.length < n → (skipLoop p n r).2.left = r.left.dropWhile p ∧
    (skipLoop p n r).1 = (r.left.takeWhile p).length := by
  induction n with
  | zero => intro r _ h; omega
  | succ n ih =>
    intro r hp hn
    unfold skipLoop
    have h := peekChar_adv r
    have hc := peek_plain hp
    rcases hg : peekChar r with ⟨_ | c, r1⟩
    · rw [hg] at hc h
      simp only at hc
      have : r.left = [] := by
        cases hl : r.left with
        | nil => rfl
        | cons a t => rw [hl] at hc; simp at hc
      have h1 := h.left
      rw [this] at h1 ⊢
      simpa using h1.symm
    · have ht := peek_take (r := r) (c := c) (by rw [hg])
      rw [hg] at ht h
      have hl := ht.left
      have h1 := h.left
      simp only at hl h1
      simp only
      by_cases hpc : p c = true
      · rw [if_pos hpc]
        have := ih (getChar r1).2 (ht.plain hp) (by rw [hl] at hn; simp at hn; omega)
        rw [hl, this.1, this.2]
        simp [hpc]
      · rw [if_neg hpc]
        simp only [List.nil_append] at h1
        rw [← h1, hl]
        simp [hpc]

theorem skip_plain (p : Char → Bool) {r : Reader} (hp : Plain r) : (skipChars p r).2.left = r.left.dropWhile p ∧
    (skipChars p r).1 = (r.left.takeWhile p).length := skipLoop_plain p _ r hp (by rw [size_plain hp]; omega)

theorem exact_adv (c : Char) (r : Reader) : Adv r (if (extractExactChar c r).1 = true then [c] else []) (extractExactChar c r).2 := by
  unfold extractExactChar
  have h := peekChar_adv r
  rcases hg : peekChar r with ⟨_ | d, r1⟩
  · rw [hg] at h; simpa using h
  · have ht := peek_take (r := r) (c := d) (by rw [hg])
    rw [hg] at h ht
    simp only
    by_cases hd : d = c
    · subst hd; simpa using ht
    · simpa [hd] using h

theorem exact_plain (c : Char) {r : Reader} (hp : Plain r) : (extractExactChar c r).1 = decide (r.left.head? = some c) := by
  unfold extractExactChar
  have h := peek_plain hp
  rcases hg : peekChar r with ⟨_ | d, r1⟩
  · rw [hg] at h; simp only at h; rw [← h]; simp
  · rw [hg] at h; simp only at h; rw [← h]
    by_cases hd : d = c
    · simp [hd]
    · simp [hd]

theorem eolLoop_adv (n : Nat) : ∀ r, Adv r (eolLoop n r).1 (eolLoop n r).2 ∧ ∀ c ∈ (eolLoop n r).1, c ≠ '\r' ∧ c ≠ '\n' := by
  induction n with
  | zero => intro r; exact ⟨Adv.refl r, by simp [eolLoop]⟩
  | succ n ih =>
    intro r
    unfold eolLoop
    have h := getChar_adv r
    rcases hg : getChar r with ⟨_ | c, r1⟩
    · rw [hg] at h; exact ⟨h, by simp⟩
    · rw [hg] at h
      simp only [Option.toList] at h
      simp only
      by_cases h1 : c = '\r' ∨ c = '\n'
      · rw [if_pos h1]; exact ⟨Adv.putBack1 (s := []) h, by simp⟩
      · have hcc : c ≠ '\r' ∧ c ≠ '\n' := ⟨fun e => h1 (Or.inl e), fun e => h1 (Or.inr e)⟩
        rw [if_neg h1]
        by_cases h2 : c = '/'
        · rw [if_pos h2]
          have hpk := h.trans_nil (peekChar_adv r1)
          by_cases h3 : (peekChar r1).1 = some '/' ∨ (peekChar r1).1 = some '*'
          · rw [if_pos h3]; exact ⟨Adv.putBack1 (s := []) hpk, by simp⟩
          · rw [if_neg h3]
            refine ⟨hpk.trans (ih _).1, ?_⟩
            intro d hd
            rcases List.mem_cons.mp hd with rfl | hd
            · exact hcc
            · exact (ih _).2 d hd
        · rw [if_neg h2]
          refine ⟨h.trans (ih _).1, ?_⟩
          intro d hd
          rcases List.mem_cons.mp hd with rfl | hd
          · exact hcc
          · exact (ih _).2 d hd

theorem eol_adv (r : Reader) : Adv r (extractToEol r).1 (extractToEol r).2 := (eolLoop_adv _ r).1

theorem eol_all (r : Reader) : ∀ c ∈ (extractToEol r).1, c ≠ '\r' ∧ c ≠ '\n' := (eolLoop_adv _ r).2

/-- The part of a text before the end of its line or a comment. -/
def lineOf : Text → Text
  | [] => []
  | c :: cs =>
    if c = '\r' ∨ c = '\n' then []
    else if c = '/' ∧ (cs.head? = some '/' ∨ cs.head? = some '*') then []
    else c :: lineOf cs

theorem eolLoop_plain (n : Nat) : ∀ r, Plain r → r.left.length < n → (eolLoop n r).1 = lineOf r.left := by
  induction n with
  | zero => intro r _ h; omega
  | succ n ih =>
    intro r hp hn
    unfold eolLoop
    have h := getChar_adv r
    have hc := getChar_plain hp
    rcases hg : getChar r with ⟨_ | c, r1⟩
    · rw [hg] at hc
      simp only at hc
      have : r.left = [] := by
        cases hl : r.left with
        | nil => rfl
        | cons a t => rw [hl] at hc; simp at hc
      simp [this, lineOf]
    · rw [hg] at h hc
      have hl := h.left
      simp only [Option.toList] at hl
      have hp1 := h.plain hp
      have hn1 : r1.left.length < n := by rw [hl] at hn; simp at hn; omega
      simp only
      rw [hl, List.singleton_append, lineOf]
      by_cases h1 : c = '\r' ∨ c = '\n'
      · rw [if_pos h1, if_pos h1]
      · rw [if_neg h1, if_neg h1]
        have hk := peek_plain hp1
        by_cases h2 : c = '/'
        · rw [if_pos h2, hk]
          have hpk := peekChar_adv r1
          have hpl := hpk.left
          rw [List.nil_append] at hpl
          by_cases h3 : r1.left.head? = some '/' ∨ r1.left.head? = some '*'
          · rw [if_pos h3, if_pos ⟨h2, h3⟩]
          · rw [if_neg h3, if_neg (fun hh => h3 hh.2)]
            have := ih (peekChar r1).2 (hpk.plain hp1) (by rw [← hpl]; exact hn1)
            rw [this, ← hpl]
        · rw [if_neg h2, if_neg (fun hh => h2 hh.1)]
          rw [ih r1 hp1 hn1]

theorem eol_plain {r : Reader} (hp : Plain r) : (extractToEol r).1 = lineOf r.left :=
  eolLoop_plain _ r hp (by rw [size_plain hp]; omega)

theorem recover_adv (r : Reader) : ∃ s, Adv r s (recover r) ∧ '\n' ∉ s := by
  refine ⟨_, extract_adv _ r, ?_⟩
  intro h
  have := extract_all _ r _ h
  simp at this

theorem commentType_adv (r : Reader) : Adv r [] (getCommentType r).2 := by
  unfold getCommentType
  have h := peekChar_adv r
  split
  · rename_i r1 hg
    have ht := peek_take (r := r) (c := '/') (by rw [hg])
    rw [hg] at h ht
    simp only at ht
    have hk := ht.trans_nil (peekChar_adv (getChar r1).2)
    split
    all_goals
      rename_i hh
      rw [hh] at hk
      exact Adv.putBack1 (s := []) hk
  · rename_i r1 _ hg
    rw [hg] at h; exact h

end Verif.Parser
