import Verif.Parser.Reader

/-! What one turn of the parser does to the innermost reader, and where its events lie. -/
namespace Verif.Parser

/-- `st` and `sp` are two places reached by the reader `r`, with `s` between them. -/
def Span (r : Reader) (st sp : Loc) (s : Text) : Prop :=
  ∃ sa ra rb, Adv r sa ra ∧ Adv ra s rb ∧ st = ra.loc ∧ sp = rb.loc

/-- An event about the characters that the reader `r` has yet to give. -/
def Ev (E : Env) (r : Reader) : Event → Prop
  | .header st sp name => Span r st sp ('<' :: name ++ ['>'])
  | .opcode ns ne vs ve name value =>
    ∃ sa ra rb rc rd raw v, Adv r sa ra ∧ Adv ra raw rb ∧ Adv rb ['='] rc ∧ Adv rc v rd ∧ ns = ra.loc ∧ ne = rb.loc ∧ vs = rc.loc ∧ ve = rd.loc ∧
      (∃ defs w, E.expand defs raw = some (name, w)) ∧
      ((∃ defs w, E.expand defs v = some (value, w)) ∨ (name = "base64data".toList ∧ value = v))
  | .error st sp _ => ∃ s, Span r st sp s
  | .warning st sp _ => ∃ s, Span r st sp s
  | .block _ _ => True

theorem Span.before {r r1 : Reader} {t s : Text} {st sp : Loc} (h : Adv r t r1) (k : Span r1 st sp s) : Span r st sp s := by
  obtain ⟨sa, ra, rb, h1, h2, h3, h4⟩ := k
  exact ⟨_, ra, rb, h.trans h1, h2, h3, h4⟩

theorem Span.here {r ra rb : Reader} {sa s : Text} (h : Adv r sa ra) (k : Adv ra s rb) : Span r ra.loc rb.loc s :=
  ⟨sa, ra, rb, h, k, rfl, rfl⟩

theorem Ev.before {E : Env} {r r1 : Reader} {t : Text} (h : Adv r t r1) {ev : Event} (k : Ev E r1 ev) : Ev E r ev := by
  cases ev with
  | header st sp name => exact Span.before h k
  | opcode ns ne vs ve name value =>
    obtain ⟨sa, ra, rb, rc, rd, raw, v, h1, h2⟩ := k
    exact ⟨_, ra, rb, rc, rd, raw, v, h.trans h1, h2⟩
  | error st sp m => obtain ⟨s, k⟩ := k; exact ⟨s, Span.before h k⟩
  | warning st sp m => obtain ⟨s, k⟩ := k; exact ⟨s, Span.before h k⟩
  | block a b => trivial

/-! ### Blanks and comments -/

theorem lineComment_adv (n : Nat) : ∀ r, ∃ s, Adv r s (lineCommentLoop n r) := by
  induction n with
  | zero => intro r; exact ⟨[], Adv.refl r⟩
  | succ n ih =>
    intro r
    unfold lineCommentLoop
    have h := getChar_adv r
    rcases hg : getChar r with ⟨_ | c, r1⟩
    · rw [hg] at h; exact ⟨_, h⟩
    · rw [hg] at h
      simp only
      split
      · exact ⟨_, h⟩
      · obtain ⟨s, hs⟩ := ih r1; exact ⟨_, h.trans hs⟩

theorem blockComment_adv (n : Nat) : ∀ c r, ∃ s, Adv r s (blockCommentLoop n c r).2 := by
  induction n with
  | zero => intro c r; exact ⟨[], Adv.refl r⟩
  | succ n ih =>
    intro c1 r
    unfold blockCommentLoop
    have h := getChar_adv r
    rcases hg : getChar r with ⟨_ | c, r1⟩
    · rw [hg] at h; exact ⟨_, h⟩
    · rw [hg] at h
      simp only
      split
      · exact ⟨_, h⟩
      · obtain ⟨s, hs⟩ := ih c r1; exact ⟨_, h.trans hs⟩

/-- A comment type other than `none` means that a slash is next. -/
theorem commentType_slash {r r1 : Reader} {t : CommentType} (h : getCommentType r = (t, r1)) (ht : t ≠ .none) : ∃ u, r1.accum = '/' :: u := by
  unfold getCommentType at h
  split at h
  · split at h
    · injection h with h1 h2; rw [← h2, putBack_accum]; exact ⟨_, rfl⟩
    · injection h with h1 h2; rw [← h2, putBack_accum]; exact ⟨_, rfl⟩
    · injection h with h1 h2; exact absurd h1.symm ht
  · injection h with h1 h2; exact absurd h1.symm ht

theorem getChar_accum {r : Reader} {c : Char} {u : Text} (h : r.accum = c :: u) : (getChar r).1 = some c := by
  unfold getChar; rw [h]

theorem skipComment_spec (E : Env) (r : Reader) : ∃ s, Adv r s (skipComment r).2.2 ∧ (∀ ev ∈ (skipComment r).2.1, Ev E r ev) ∧
    ((skipComment r).1 = true → (skipComment r).2.2.size < r.size) ∧ ((skipComment r).1 = false → s = []) := by
  unfold skipComment
  have h := commentType_adv r
  rcases hg : getCommentType r with ⟨t, r1⟩
  rw [hg] at h
  have taken : t ≠ .none → Adv r ('/' :: (getChar (getChar r1).2).1.toList) (getChar (getChar r1).2).2 := by
    intro ht
    obtain ⟨u, hu⟩ := commentType_slash hg ht
    have h1 := getChar_adv r1
    rw [getChar_accum hu] at h1
    exact h.nil_trans (h1.trans (getChar_adv (getChar r1).2))
  cases t with
  | none => exact ⟨[], h, by simp, by simp, by simp⟩
  | line =>
    have h2 := taken (by simp)
    obtain ⟨s, hs⟩ := lineComment_adv (r1.size + 1) (getChar (getChar r1).2).2
    have h3 := h2.trans hs
    refine ⟨_, h3, by simp, ?_, by simp⟩
    intro _
    have := h3.size
    simp at this ⊢
    omega
  | block =>
    have h2 := taken (by simp)
    have h3 := getChar_adv (getChar (getChar r1).2).2
    simp only
    rcases hg2 : getChar (getChar (getChar r1).2).2 with ⟨_ | c, r2⟩
    · rw [hg2] at h3
      have h4 := h2.trans h3
      refine ⟨_, h4, ?_, ?_, by simp⟩
      · intro ev hev
        simp only [List.mem_singleton] at hev
        subst hev
        exact ⟨_, [], r1, r2, h, ((getChar_adv r1).trans (getChar_adv _)).trans h3, rfl, rfl⟩
      · intro _
        have := h4.size
        simp at this ⊢
        omega
    · rw [hg2] at h3
      have h4 := h2.trans h3
      simp only
      obtain ⟨s, hs⟩ := blockComment_adv (r2.size + 1) c r2
      rcases hb : blockCommentLoop (r2.size + 1) c r2 with ⟨_ | _, r3⟩
      · rw [hb] at hs
        refine ⟨_, h4.trans hs, ?_, ?_, by simp⟩
        · intro ev hev
          simp only [List.mem_singleton] at hev
          subst hev
          exact ⟨_, [], r1, r3, h, (((getChar_adv r1).trans (getChar_adv _)).trans h3).trans hs, rfl, rfl⟩
        · intro _
          have := (h4.trans hs).size
          simp at this ⊢
          omega
      · rw [hb] at hs
        refine ⟨_, h4.trans hs, by simp, ?_, by simp⟩
        intro _
        have := (h4.trans hs).size
        simp at this ⊢
        omega

/-- A true end of the source. -/
theorem peek_none_size {r : Reader} (h : (peekChar r).1 = none) (hs : (peekChar r).2.size = r.size) : r.left = [] := by
  cases ha : r.accum with
  | cons c t => simp [peekChar, ha] at h
  | nil =>
    cases hst : r.stream with
    | nil => simp [Reader.left, Reader.rest, ha, hst]
    | cons c t =>
      simp only [peekChar, ha, getChar, hst] at h hs
      by_cases hc : r.signed = true ∧ c = eofByte
      · rw [if_pos hc] at hs
        simp [Reader.size, hst, ha] at hs
      · rw [if_neg hc] at h
        simp at h

/-- If blanks were looked for and nothing was taken, what comes next is not blank. -/
theorem skipChars_zero {p : Char → Bool} {r : Reader} (h0 : (skipChars p r).1 = 0) (hs : (skipChars p r).2.size = r.size) :
    r.left = [] ∨ ∃ c t, r.left = c :: t ∧ p c = false := by
  unfold skipChars skipLoop at h0 hs
  rcases hg : peekChar r with ⟨_ | c, r1⟩
  · rw [hg] at hs
    left
    exact peek_none_size (by rw [hg]) (by rw [hg]; exact hs)
  · rw [hg] at h0
    simp only at h0
    right
    have ht := peek_take (r := r) (c := c) (by rw [hg])
    refine ⟨c, _, ht.left, ?_⟩
    cases hc : p c with
    | false => rfl
    | true => rw [if_pos hc] at h0; simp at h0

theorem skipBlanksLoop_spec (E : Env) (n : Nat) : ∀ r, r.size < n → ∃ s, Adv r s (skipBlanksLoop n r).2 ∧ (∀ ev ∈ (skipBlanksLoop n r).1, Ev E r ev) ∧
    ((skipBlanksLoop n r).2.size = r.size → r.left = [] ∨ ∃ c t, r.left = c :: t ∧ isBlank c = false) := by
  induction n with
  | zero => intro r h; omega
  | succ n ih =>
    intro r hn
    unfold skipBlanksLoop
    obtain ⟨s, h1, h2, h3⟩ := skip_adv isBlank r
    rcases hg : skipChars isBlank r with ⟨_ | k, r1⟩
    · rw [hg] at h1 h3
      have hs : s = [] := List.eq_nil_of_length_eq_zero h3
      subst hs
      simp only at h1
      simp only
      obtain ⟨u, k1, k2, k3, k4⟩ := skipComment_spec E r1
      rcases hc : skipComment r1 with ⟨_ | _, ev, r2⟩
      · rw [hc] at k1 k4
        have := k4 rfl
        subst this
        refine ⟨[], h1.trans k1, by simp, ?_⟩
        intro hsz
        have a1 := h1.le
        have a2 := k1.le
        simp only at hsz a2
        exact skipChars_zero (p := isBlank) (r := r) (by rw [hg]) (by rw [hg]; simp only; omega)
      · rw [hc] at k1 k2 k3
        have hlt := k3 rfl
        simp only at hlt k1 k2
        have a1 := h1.le
        obtain ⟨v, m1, m2, m3⟩ := ih r2 (by omega)
        refine ⟨_, (h1.nil_trans k1).trans m1, ?_, ?_⟩
        · intro e he
          rcases List.mem_append.mp he with he | he
          · exact (k2 e he).before h1
          · exact (m2 e he).before (h1.nil_trans k1)
        · intro hsz
          have := m1.le
          simp only at hsz
          omega
    · rw [hg] at h1 h3
      simp only at h3 h1
      simp only
      have hsz := h1.size
      obtain ⟨v, m1, m2, m3⟩ := ih r1 (by omega)
      refine ⟨_, h1.trans m1, fun e he => (m2 e he).before h1, ?_⟩
      intro hh
      have := m1.le
      omega

theorem skipBlanks_spec (E : Env) (r : Reader) : ∃ s, Adv r s (skipBlanks r).2 ∧ (∀ ev ∈ (skipBlanks r).1, Ev E r ev) ∧
    ((skipBlanks r).2.size = r.size → r.left = [] ∨ ∃ c t, r.left = c :: t ∧ isBlank c = false) := skipBlanksLoop_spec E _ r (by omega)

/-! ### Values -/

theorem splitValue_append (n : Nat) : ∀ t, (splitValue n t).1 ++ (splitValue n t).2 = t := by
  induction n with
  | zero => intro t; rfl
  | succ n ih =>
    intro t
    cases t with
    | nil => rfl
    | cons c cs =>
      unfold splitValue
      split
      · rfl
      · split
        · have hw := List.takeWhile_append_dropWhile (p := isSpaceChar) (l := cs)
          split
          · rfl
          · rename_i d us hd
            rw [hd] at hw
            split
            · rfl
            · split
              · split
                · rfl
                · simp only [List.append_assoc, ih]; rw [List.cons_append, hw]
              · split
                · split
                  · rfl
                  · simp only [List.append_assoc, List.cons_append, ih, List.takeWhile_append_dropWhile, hw]
                · simp only [List.append_assoc, ih]; rw [List.cons_append, hw]
        · simp [ih]

/-! ### Turns -/

/-- What is left of the innermost file after a turn: the file is over, or it has advanced, or it has advanced
and an included file is now the innermost one. -/
inductive Shape (E : Env) (r : Reader) (rest : List Reader) (B : Nat) : List Reader → Prop
  | over : Shape E r rest B rest
  | moved (r' : Reader) (s : Text) : Adv r s r' → r'.size < B → Shape E r rest B (r' :: rest)
  | included (r' : Reader) (s p t : Text) : Adv r s r' → r'.size < B → E.files p = some t → rest.length + 1 ≠ E.maxDepth →
      Shape E r rest B (newReader p false t :: r' :: rest)

/-- The outcome of a turn. -/
structure Outcome (E : Env) (s : PState) (r : Reader) (rest : List Reader) (B : Nat) (s' : PState) : Prop where
  shape : Shape E r rest B s'.included
  events : ∃ evs, s'.events = s.events ++ evs ∧ ∀ ev ∈ evs, Ev E r ev

theorem Shape.before {E : Env} {r r1 : Reader} {rest : List Reader} {B : Nat} {t : Text} {l : List Reader} (h : Adv r t r1)
    (k : Shape E r1 rest B l) : Shape E r rest B l := by
  cases k with
  | over => exact .over
  | moved r' s h1 h2 => exact .moved r' _ (h.trans h1) h2
  | included r' s p t h1 h2 h3 h4 => exact .included r' _ p t (h.trans h1) h2 h3 h4

theorem recover_shape (E : Env) {r r1 : Reader} {s : Text} (h : Adv r s r1) (rest : List Reader) {B : Nat} (hB : r1.size < B) :
    Shape E r rest B (recover r1 :: rest) := by
  obtain ⟨t, ht, _⟩ := recover_adv r1
  exact .moved _ _ (h.trans ht) (by have := ht.le; omega)

theorem one_error {E : Env} {r ra rb : Reader} {sa s : Text} (h : Adv r sa ra) (k : Adv ra s rb) (m : Msg) :
    ∀ ev ∈ [Event.error ra.loc rb.loc m], Ev E r ev := by
  intro ev hev
  rw [List.mem_singleton] at hev
  subst hev
  exact ⟨s, Span.here h k⟩

theorem warnings_ev {E : Env} {r ra rb : Reader} {sa s : Text} (h : Adv r sa ra) (k : Adv ra s rb) (w : List Msg) :
    ∀ ev ∈ w.map (Event.warning ra.loc rb.loc), Ev E r ev := by
  intro ev hev
  obtain ⟨m, _, rfl⟩ := List.mem_map.mp hev
  exact ⟨s, Span.here h k⟩

theorem define_outcome (E : Env) (s : PState) {r r1 : Reader} {t : Text} (h : Adv r t r1) (rest : List Reader) {B : Nat} (hB : r1.size < B) :
    Outcome E s r rest B (processDefine s r.loc r1 rest) := by
  unfold processDefine
  obtain ⟨a, ha, _⟩ := skip_adv isSpaceChar r1
  have hx := exact_adv '$' (skipChars isSpaceChar r1).2
  rcases hg : extractExactChar '$' (skipChars isSpaceChar r1).2 with ⟨_ | _, r2⟩
  · rw [hg] at hx
    dsimp only at hx
    have h2 := h.trans (ha.trans hx)
    have h2s := (ha.trans hx).le
    exact ⟨recover_shape E h2 rest (by omega), ⟨_, rfl, one_error (Adv.refl r) h2 _⟩⟩
  · rw [hg] at hx
    dsimp only at hx
    simp only
    have h2 := h.trans (ha.trans hx)
    have h2s := (ha.trans hx).le
    have he := extract_adv isIdentChar r2
    rcases hg2 : extractWhile isIdentChar r2 with ⟨_ | ⟨i, id⟩, r3⟩
    · rw [hg2] at he
      dsimp only at he
      have h3 := h2.trans he
      have := he.le
      exact ⟨recover_shape E h3 rest (by omega), ⟨_, rfl, one_error (Adv.refl r) h3 _⟩⟩
    · rw [hg2] at he
      dsimp only at he
      simp only
      have h3 := h2.trans he
      have h3s := he.le
      obtain ⟨b, hb, _⟩ := skip_adv isSpaceChar r3
      have hl := eol_adv (skipChars isSpaceChar r3).2
      rcases hg3 : extractToEol (skipChars isSpaceChar r3).2 with ⟨value, r4⟩
      rw [hg3] at hl
      simp only at hl
      simp only
      have hw := List.takeWhile_append_dropWhile (p := fun c => !isSpaceChar c) (l := value)
      rw [← hw] at hl
      have h4 := Adv.putBack hl
      have h4s := (hb.trans h4).le
      refine ⟨.moved _ _ (h3.trans (hb.trans h4)) ?_, ⟨[], by simp, by simp⟩⟩
      omega

theorem include_outcome (E : Env) (s s' : PState) {r r1 : Reader} {t : Text} (h : Adv r t r1) (rest : List Reader) {B : Nat} (hB : r1.size < B)
    (heq : processInclude E s r.loc r1 rest = some s') : Outcome E s r rest B s' := by
  unfold processInclude at heq
  obtain ⟨a, ha, _⟩ := skip_adv isSpaceChar r1
  have hx := exact_adv '"' (skipChars isSpaceChar r1).2
  rcases hg : extractExactChar '"' (skipChars isSpaceChar r1).2 with ⟨_ | _, r2⟩
  · rw [hg] at hx heq
    dsimp only at hx
    have h2 := h.trans (ha.trans hx)
    have h2s := (ha.trans hx).le
    simp only [Option.some.injEq] at heq
    subst heq
    exact ⟨recover_shape E h2 rest (by omega), ⟨_, rfl, one_error (Adv.refl r) h2 _⟩⟩
  · rw [hg] at hx heq
    dsimp only at hx
    simp only at heq
    have h2 := h.trans (ha.trans hx)
    have h2s := (ha.trans hx).le
    have he := extract_adv (fun c => c != '"' && c != '\r' && c != '\n') r2
    rcases hg2 : extractWhile (fun c => c != '"' && c != '\r' && c != '\n') r2 with ⟨path, r3⟩
    rw [hg2] at he heq
    simp only at heq he
    have h3 := h2.trans he
    have h3s := he.le
    have hy := exact_adv '"' r3
    rcases hg3 : extractExactChar '"' r3 with ⟨_ | _, r4⟩
    · rw [hg3] at hy heq
      dsimp only at hy
      have h4 := h3.trans hy
      have h4s := hy.le
      simp only [Option.some.injEq] at heq
      subst heq
      exact ⟨recover_shape E h4 rest (by omega), ⟨_, rfl, one_error (Adv.refl r) h4 _⟩⟩
    · rw [hg3] at hy heq
      dsimp only at hy
      have h4 := h3.trans hy
      have h4s := hy.le
      simp only at heq
      rcases hex : E.expand s.defs path with _ | ⟨p, w⟩
      · rw [hex] at heq; simp at heq
      · rw [hex] at heq
        simp only [Option.some.injEq] at heq
        subst heq
        have hw : ∀ ev ∈ w.map (Event.warning r2.loc r3.loc), Ev E r ev := warnings_ev h2 he w
        have hm : Shape E r rest B (r4 :: rest) := .moved _ _ h4 (by omega)
        unfold includeFile
        split
        · exact ⟨hm, ⟨_, rfl, hw⟩⟩
        · split
          · refine ⟨hm, ⟨w.map (Event.warning r2.loc r3.loc) ++ [.error r.loc r4.loc .includeDepth], ?_, ?_⟩⟩
            · simp [PState.emit]
            · intro ev hev
              rcases List.mem_append.mp hev with hev | hev
              · exact hw ev hev
              · exact one_error (Adv.refl r) h4 _ ev hev
          · rename_i hd
            split
            · refine ⟨hm, ⟨w.map (Event.warning r2.loc r3.loc) ++ [.error r.loc r4.loc .cannotOpen], ?_, ?_⟩⟩
              · simp [PState.emit]
              · intro ev hev
                rcases List.mem_append.mp hev with hev | hev
                · exact hw ev hev
                · exact one_error (Adv.refl r) h4 _ ev hev
            · rename_i tx hf
              exact ⟨.included r4 _ _ tx h4 (by omega) hf (by simpa using hd), ⟨_, rfl, hw⟩⟩

theorem directive_outcome (E : Env) (s s' : PState) {r : Reader} (rest : List Reader) (hr : (getChar r).1 = some '#')
    (heq : processDirective E s r rest = some s') : Outcome E s r rest r.size s' := by
  unfold processDirective at heq
  have h := getChar_adv r
  rcases hg : getChar r with ⟨o, r1⟩
  rw [hg] at heq hr h
  simp only at hr
  subst hr
  simp only at heq h
  have h1s := h.size
  simp at h1s
  have he := extract_adv isIdentChar r1
  rcases hg2 : extractWhile isIdentChar r1 with ⟨dir, r2⟩
  rw [hg2] at heq he
  simp only at heq he
  have h2 := h.trans he
  have h2s := he.le
  split at heq
  · simp only [Option.some.injEq] at heq
    subst heq
    exact define_outcome E s h2 rest (by omega)
  · split at heq
    · exact include_outcome E s s' h2 rest (by omega) heq
    · simp only [Option.some.injEq] at heq
      subst heq
      exact ⟨recover_shape E h2 rest (by omega), ⟨_, rfl, one_error (Adv.refl r) h2 _⟩⟩

theorem flush_events (s : PState) : ∃ evs, (flush s).events = s.events ++ evs ∧ ∀ ev ∈ evs, ∃ h o, ev = Event.block h o := by
  unfold flush
  split
  · exact ⟨_, rfl, by simp⟩
  · exact ⟨[], by simp, by simp⟩

theorem flush_included (s : PState) : (flush s).included = s.included := by unfold flush; split <;> rfl

theorem header_outcome (E : Env) (s : PState) {r : Reader} (rest : List Reader) (hr : (getChar r).1 = some '<') :
    Outcome E s r rest r.size (processHeader s r rest) := by
  unfold processHeader
  have h := getChar_adv r
  rcases hg : getChar r with ⟨o, r1⟩
  rw [hg] at hr h
  simp only at hr
  subst hr
  simp only at h
  simp only
  have h1s := h.size
  simp at h1s
  have he := extract_adv (fun c => c != '\r' && c != '\n' && c != '>') r1
  rcases hg2 : extractWhile (fun c => c != '\r' && c != '\n' && c != '>') r1 with ⟨name, r2⟩
  rw [hg2] at he
  dsimp only at he
  simp only
  have h2s := he.le
  have hpk := peekChar_adv r2
  split
  · rename_i r3 hp
    have ht := peek_take (r := r2) (c := '>') (by rw [hp])
    rw [hp] at ht
    simp only at ht
    have h3 := h.trans (he.trans ht)
    have h3s := ht.size
    simp at h3s
    split
    · obtain ⟨ev, hev, hb⟩ := flush_events s
      refine ⟨?_, ⟨ev ++ [.header r.loc (getChar r3).2.loc name], ?_, ?_⟩⟩
      · rw [show ({ flush { s with included := (getChar r3).2 :: rest } with header := some name, events := (flush s).events ++ [.header r.loc (getChar r3).2.loc name] } : PState).included = (getChar r3).2 :: rest from flush_included _]
        exact .moved _ _ h3 (by omega)
      · simp [hev]
      · intro e he
        rcases List.mem_append.mp he with he | he
        · obtain ⟨a, b, rfl⟩ := hb e he; trivial
        · rw [List.mem_singleton] at he
          subst he
          exact Span.here (Adv.refl r) h3
    · refine ⟨recover_shape E h3 rest (by omega), ⟨_, rfl, one_error (Adv.refl r) h3 _⟩⟩
  · rename_i r3 _ hp
    rw [hp] at hpk
    dsimp only at hpk
    have h3 := h.trans (he.trans hpk)
    have := hpk.le
    exact ⟨recover_shape E h3 rest (by omega), ⟨_, rfl, one_error (Adv.refl r) h3 _⟩⟩

/-- An extraction that takes nothing leaves its first character where it was. -/
theorem extract_nil_accum {p : Char → Bool} {r r1 : Reader} {c : Char} (hc : (getChar r).1 = some c) (h : extractWhile p r = ([], r1)) :
    ∃ u, r1.accum = c :: u := by
  unfold extractWhile extractLoop at h
  rcases hg : getChar r with ⟨o, r2⟩
  rw [hg] at h hc
  simp only at hc
  subst hc
  simp only at h
  split at h
  · simp at h
  · injection h with h1 h2
    rw [← h2, putBack_accum]; exact ⟨_, rfl⟩

theorem recover_lt {r : Reader} {c : Char} {u : Text} (h : r.accum = c :: u) (hc : c ≠ '\n') : (recover r).size < r.size := by
  have hx := extract_adv (fun c => c != '\n') r
  have hne : (extractWhile (fun c => c != '\n') r).1 ≠ [] := by
    unfold extractWhile extractLoop
    have := getChar_accum h
    rcases hg : getChar r with ⟨o, r2⟩
    rw [hg] at this
    simp only at this
    subst this
    simp [hc]
  have := hx.size
  have := List.length_pos_iff.mpr hne
  unfold recover
  omega

theorem value_outcome (E : Env) (s s' : PState) {r ra rb rc : Reader} {sa raw name : Text} (h1 : Adv r sa ra) (h2 : Adv ra raw rb)
    (h3 : Adv rb ['='] rc) (hn : ∃ defs w, E.expand defs raw = some (name, w)) (rest : List Reader) {B : Nat} (hB : rc.size < B)
    (heq : processValue E s ra.loc rb.loc rc.loc name rc rest = some s') : Outcome E s r rest B s' := by
  unfold processValue at heq
  have hl := eol_adv rc
  rcases hg : extractToEol rc with ⟨line, r1⟩
  rw [hg] at heq hl
  simp only at heq hl
  have hsp := splitValue_append (line.length + 1) line
  rw [← hsp] at hl
  have h4 := Adv.putBack hl
  have h4s := h4.le
  rcases hex : E.expand s.defs (splitValue (line.length + 1) line).1 with _ | ⟨v, w⟩
  · rw [hex] at heq; simp at heq
  · rw [hex] at heq
    simp only [Option.some.injEq] at heq
    subst heq
    refine ⟨.moved _ _ (h1.trans (h2.trans (h3.trans h4))) (by omega), ⟨_, by simp only [List.append_assoc]; rfl, ?_⟩⟩
    intro ev hev
    rcases List.mem_append.mp hev with hev | hev
    · split at hev
      · rw [List.mem_singleton] at hev
        subst hev
        exact ⟨_, Span.here h1 (h2.trans (h3.trans h4))⟩
      · simp at hev
    · rcases List.mem_append.mp hev with hev | hev
      · exact warnings_ev (h1.trans (h2.trans h3)) h4 w ev hev
      · rw [List.mem_singleton] at hev
        subst hev
        exact ⟨sa, ra, rb, rc, _, raw, _, h1, h2, h3, h4, rfl, rfl, rfl, rfl, hn, Or.inl ⟨s.defs, w, hex⟩⟩

theorem opcode_outcome (E : Env) (s s' : PState) {r : Reader} {c : Char} (rest : List Reader) {B : Nat} (hr : (getChar r).1 = some c)
    (hB : r.size ≤ B) (hc : c ≠ '\n' ∨ r.size < B) (heq : processOpcode E s r rest = some s') : Outcome E s r rest B s' := by
  unfold processOpcode at heq
  have he := extract_adv (fun c => isIdentChar c || c == '$') r
  rcases hg : extractWhile (fun c => isIdentChar c || c == '$') r with ⟨_ | ⟨i, raw⟩, r1⟩
  · rw [hg] at heq he
    simp only [Option.some.injEq] at heq
    subst heq
    obtain ⟨t, ht, _⟩ := recover_adv r1
    refine ⟨.moved _ _ (he.trans ht) ?_, ⟨_, rfl, one_error (Adv.refl r) he _⟩⟩
    have a1 := he.le
    have a2 := ht.le
    simp only at a1
    rcases hc with hc | hc
    · obtain ⟨u, hu⟩ := extract_nil_accum hr hg
      have := recover_lt hu hc
      omega
    · omega
  · rw [hg] at heq he
    simp only at heq he
    have hes := he.size
    simp at hes
    have hpk := peekChar_adv r1
    split at heq
    · rename_i r2 hp
      have ht := peek_take (r := r1) (c := '=') (by rw [hp])
      rw [hp] at ht hpk
      simp only at ht hpk
      have hpks := hpk.le
      have hts := ht.size
      simp at hts
      rcases hex : E.expand s.defs (i :: raw) with _ | ⟨name, w⟩
      · rw [hex] at heq; simp at heq
      · rw [hex] at heq
        simp only at heq
        have hw : ∀ ev ∈ w.map (Event.warning r.loc r1.loc), Ev E r ev := warnings_ev (Adv.refl r) he w
        split at heq
        · split at heq
          · rename_i hb
            simp only [Option.some.injEq] at heq
            subst heq
            unfold processData
            have hd := extract_adv (fun c => !(c == '<' || c == '#')) (getChar r2).2
            rcases hgd : extractWhile (fun c => !(c == '<' || c == '#')) (getChar r2).2 with ⟨value, r3⟩
            rw [hgd] at hd
            simp only at hd
            simp only
            have hds := hd.le
            refine ⟨.moved _ _ (he.trans (ht.trans hd)) (by omega), ⟨_, by simp only [List.append_assoc]; rfl, ?_⟩⟩
            intro ev hev
            rcases List.mem_append.mp hev with hev | hev
            · exact hw ev hev
            · rw [List.mem_singleton] at hev
              subst hev
              exact ⟨[], r, r1, _, _, i :: raw, _, Adv.refl r, he, ht, hd, rfl, rfl, rfl, rfl, ⟨s.defs, w, hex⟩, Or.inr ⟨hb, rfl⟩⟩
          · have := value_outcome E _ s' (Adv.refl r) he ht ⟨s.defs, w, hex⟩ rest (B := B) (by omega) heq
            obtain ⟨evs, k1, k2⟩ := this.events
            refine ⟨this.shape, ⟨w.map (Event.warning r.loc r1.loc) ++ evs, ?_, ?_⟩⟩
            · rw [k1]; simp
            · intro ev hev
              rcases List.mem_append.mp hev with hev | hev
              · exact hw ev hev
              · exact k2 ev hev
        · simp only [Option.some.injEq] at heq
          subst heq
          refine ⟨recover_shape E (he.trans_nil hpk) rest (by omega), ⟨_, by simp only [List.append_assoc]; rfl, ?_⟩⟩
          intro ev hev
          rcases List.mem_append.mp hev with hev | hev
          · exact hw ev hev
          · exact one_error (Adv.refl r) he _ ev hev
    · rename_i r2 _ hp
      rw [hp] at hpk
      simp only at hpk
      have hpks := hpk.le
      simp only [Option.some.injEq] at heq
      subst heq
      exact ⟨recover_shape E (he.trans_nil hpk) rest (by omega), ⟨_, rfl, one_error (Adv.refl r) he _⟩⟩

theorem Outcome.before {E : Env} {s s0 s' : PState} {r r1 : Reader} {rest : List Reader} {B B' : Nat} {t : Text} {ev0 : List Event} (h : Adv r t r1)
    (h0 : s0.events = s.events ++ ev0) (hev : ∀ ev ∈ ev0, Ev E r ev) (hB : B ≤ B') (k : Outcome E s0 r1 rest B s') : Outcome E s r rest B' s' := by
  obtain ⟨k1, evs, k2, k3⟩ := k
  refine ⟨?_, ⟨ev0 ++ evs, by rw [k2, h0, List.append_assoc], ?_⟩⟩
  · have hs := Shape.before h k1
    generalize s'.included = l at hs
    cases hs with
    | over => exact .over
    | moved r' s h1 h2 => exact .moved r' _ h1 (by omega)
    | included r' s p t h1 h2 h3 h4 => exact .included r' _ p t h1 (by omega) h3 h4
  · intro ev he
    rcases List.mem_append.mp he with he | he
    · exact hev ev he
    · exact (k3 ev he).before h

theorem turn_outcome (E : Env) (s s' : PState) (r : Reader) (rest : List Reader) (heq : turn E s r rest = some s') :
    Outcome E s r rest r.size s' := by
  unfold turn at heq
  obtain ⟨t, h1, h2, h3⟩ := skipBlanks_spec E r
  rcases hg : skipBlanks r with ⟨ev, r1⟩
  rw [hg] at heq h1 h2 h3
  simp only at heq h1 h2 h3
  have hpk := peekChar_adv r1
  rcases hp : peekChar r1 with ⟨_ | c, r2⟩
  · rw [hp] at heq
    simp only [Option.some.injEq] at heq
    subst heq
    exact ⟨.over, ⟨ev, rfl, h2⟩⟩
  · have hget := peek_get (r := r1) (c := c) (by rw [hp])
    have htake := peek_take (r := r1) (c := c) (by rw [hp])
    rw [hp] at heq hpk hget htake
    simp only at heq hpk hget htake
    have ha := h1.trans_nil hpk
    have has := ha.le
    split at heq
    · rename_i hc
      subst hc
      exact (directive_outcome E _ s' rest hget heq).before ha rfl h2 has
    · split at heq
      · rename_i hc
        subst hc
        simp only [Option.some.injEq] at heq
        subst heq
        exact (header_outcome E _ rest hget).before ha rfl h2 has
      · refine (opcode_outcome E _ s' (B := r.size) rest hget has ?_ heq).before ha rfl h2 (Nat.le_refl _)
        by_cases hs : r2.size < r.size
        · exact Or.inr hs
        · left
          have hps := hpk.le
          have h1s := h1.size
          have ht0 : t = [] := by
            apply List.eq_nil_of_length_eq_zero
            omega
          subst ht0
          rintro rfl
          have hl := h1.left
          rw [List.nil_append, htake.left] at hl
          rcases h3 (by omega) with h | ⟨c', t', h, hb⟩
          · rw [h] at hl; simp at hl
          · rw [h] at hl
            simp only [List.singleton_append, List.cons.injEq] at hl
            rw [hl.1] at hb
            simp [isBlank] at hb

end Verif.Parser
