import Verif.Parser.Grammar

/-! C26: where values end. -/
namespace Verif.Parser

theorem OneLine.tail {c : Char} {v rest : Text} (h : OneLine (c :: v) rest) : OneLine v rest := by
  refine ⟨fun hh => h.1 (by simp [hh]), fun hh => h.2.1 (by simp [hh]), ?_⟩
  intro a d b hab
  exact h.2.2 (c :: a) d b (by rw [List.cons_append, hab]; rfl)

theorem lineOf_append {v rest : Text} (h : OneLine v rest) : lineOf (v ++ rest) = v ++ lineOf rest := by
  induction v with
  | nil => rfl
  | cons c v ih =>
    rw [List.cons_append, lineOf, if_neg, if_neg, ih h.tail]
    · rfl
    · rintro ⟨rfl, hd⟩
      have key : ∀ d, (v ++ rest).head? = some d → d ≠ '/' ∧ d ≠ '*' := by
        intro d hd
        cases v with
        | nil =>
          cases rest with
          | nil => simp at hd
          | cons e rest =>
            simp at hd
            exact h.2.2 [] d [] (by simp [hd])
        | cons e v =>
          simp at hd
          exact h.2.2 [] d (v ++ rest.take 1) (by simp [hd])
      rcases hd with hd | hd
      · exact (key _ hd).1 rfl
      · exact (key _ hd).2 rfl
    · rintro (rfl | rfl)
      · exact h.1 (by simp)
      · exact h.2.1 (by simp)

theorem lineOf_ends {rest : Text} (h : LineEnds rest) : lineOf rest = [] := by
  rcases h with rfl | ⟨c, t, rfl, h⟩
  · rfl
  · unfold lineOf
    rcases h with rfl | rfl | ⟨rfl, h⟩
    · simp
    · simp
    · rw [if_neg (by decide), if_pos ⟨rfl, h⟩]

/-- Characters that neither end a line nor begin a comment. -/
theorem lineOf_plain {a rest : Text} (h : ∀ c ∈ a, c ≠ '\r' ∧ c ≠ '\n' ∧ c ≠ '/') : lineOf (a ++ rest) = a ++ lineOf rest := by
  induction a with
  | nil => rfl
  | cons c a ih =>
    have hc := h c (by simp)
    rw [List.cons_append, lineOf, if_neg (fun e => e.elim hc.1 hc.2.1), if_neg (fun e => hc.2.2 e.1),
      ih (fun d hd => h d (by simp [hd]))]
    rfl

theorem lineOf_head {c : Char} {t rest : Text} (h : lineOf rest = c :: t) : rest.head? = some c := by
  cases rest with
  | nil => simp [lineOf] at h
  | cons d rest =>
    unfold lineOf at h
    split at h
    · simp at h
    · split at h
      · simp at h
      · simp at h; simp [h.1]

theorem ident_plain {c : Char} (h : isIdentChar c = true) : c ≠ '\r' ∧ c ≠ '\n' ∧ c ≠ '/' ∧ c ≠ ' ' ∧ c ≠ '\t' ∧ c ≠ '<' ∧ c ≠ '#' ∧ c ≠ '=' ∧ c ≠ '$' ∧ c ≠ '"' ∧ c ≠ '>' := by
  refine ⟨?_, ?_, ?_, ?_, ?_, ?_, ?_, ?_, ?_, ?_, ?_⟩ <;> (rintro rfl; revert h; decide)

/-- What is left of a line where a value ends. -/
def LineStop (l : Text) : Prop :=
  l = [] ∨ l.head? = some '<' ∨
    ∃ sp t, l = sp ++ t ∧ sp ≠ [] ∧ (∀ c ∈ sp, c = ' ' ∨ c = '\t') ∧ (t = [] ∨ t.head? = some '<' ∨ OpcodeNext t ∨ DirectiveNext t)

theorem ValueEnds.line {rest : Text} (h : ValueEnds rest) : LineStop (lineOf rest) := by
  have hlt : ∀ t : Text, t.head? = some '<' → (lineOf t).head? = some '<' := by
    intro t ht
    cases t with
    | nil => simp at ht
    | cons c t =>
      simp at ht
      subst ht
      rw [show ('<' :: t) = ['<'] ++ t from rfl, lineOf_plain (by simp)]
      rfl
  rcases h with h | h | ⟨sp, t, rfl, h1, h2, h3⟩
  · exact Or.inl (lineOf_ends h)
  · exact Or.inr (Or.inl (hlt rest h))
  · right; right
    refine ⟨sp, lineOf t, lineOf_plain ?_, h1, h2, ?_⟩
    · intro c hc
      rcases h2 c hc with rfl | rfl <;> decide
    · rcases h3 with h3 | h3 | h3 | h3
      · exact Or.inl (lineOf_ends h3)
      · exact Or.inr (Or.inl (hlt t h3))
      · obtain ⟨c, w, t', rfl, k1, k2⟩ := h3
        refine Or.inr (Or.inr (Or.inl ⟨c, w, lineOf t', ?_, k1, k2⟩))
        have := lineOf_plain (a := c :: w ++ ['=']) (rest := t') (by
          intro d hd
          simp only [List.cons_append, List.mem_cons, List.mem_append, List.not_mem_nil, or_false] at hd
          rcases hd with rfl | hd | rfl
          · have := ident_plain k1; exact ⟨this.1, this.2.1, this.2.2.1⟩
          · rcases k2 d hd with hd | rfl
            · have := ident_plain hd; exact ⟨this.1, this.2.1, this.2.2.1⟩
            · decide
          · decide)
        simpa using this
      · obtain ⟨w, t', rfl, k1, k2⟩ := h3
        refine Or.inr (Or.inr (Or.inr ⟨w, lineOf t', ?_, k1, ?_⟩))
        · apply lineOf_plain
          intro c hc
          rcases List.mem_cons.mp hc with rfl | hc
          · decide
          · rcases k1 with rfl | rfl
            · revert hc; revert c; decide
            · revert hc; revert c; decide
        · intro c u hcu
          have := lineOf_head hcu
          cases t' with
          | nil => simp at this
          | cons d t' => simp at this; exact k2 c t' (by rw [this])

/-- The characters such a text can begin with. -/
theorem LineStop.head {l : Text} (h : LineStop l) : ∀ c t, l = c :: t → c = '<' ∨ c = ' ' ∨ c = '\t' := by
  rintro c t rfl
  rcases h with h | h | ⟨sp, t', h1, h2, h3, _⟩
  · simp at h
  · simp at h; exact Or.inl h
  · cases sp with
    | nil => exact absurd rfl h2
    | cons d sp =>
      simp at h1
      rw [h1.1]
      exact Or.inr (h3 d (by simp))

theorem takeWhile_stop {p : Char → Bool} (a : Text) {l : Text} (h : ∀ c t, l = c :: t → p c = false) :
    (a ++ l).takeWhile p = a.takeWhile p ∧ (a ++ l).dropWhile p = a.dropWhile p ++ l := by
  induction a with
  | nil =>
    cases l with
    | nil => simp
    | cons c t => simp [h c t rfl]
  | cons c a ih =>
    by_cases hc : p c = true
    · simp [hc, ih.1, ih.2]
    · simp [hc]

theorem dropWhile_head {p : Char → Bool} {a : Text} {c : Char} {t : Text} (h : a.dropWhile p = c :: t) : p c = false := by
  induction a with
  | nil => simp at h
  | cons d a ih =>
    rw [List.dropWhile_cons] at h
    split at h
    · exact ih h
    · rename_i hd
      injection h with h1 _
      rw [← h1]
      simpa using hd

theorem ValueText.suffix {a b : Text} (h : ValueText (a ++ b)) : ValueText b := by
  refine ⟨fun hh => h.1 (by simp [hh]), ?_⟩
  intro x c y hxy hc
  exact h.2 (a ++ x) c y (by rw [hxy, List.append_assoc]) hc

theorem isSpace_iff {c : Char} : isSpaceChar c = true ↔ c = ' ' ∨ c = '\t' := by simp [isSpaceChar]

theorem isWord_iff {c : Char} : (isIdentChar c || c == '$') = true ↔ isIdentChar c = true ∨ c = '$' := by simp

/-- The value and what is put back. -/
theorem splitValue_at {l : Text} (hl : LineStop l) (n : Nat) : ∀ {v : Text}, ValueText v → (v ++ l).length < n → splitValue n (v ++ l) = (v, l) := by
  induction n with
  | zero => intro v _ h; omega
  | succ n ih =>
    intro v hv hn
    have hhead := hl.head
    have hident : ∀ c t, l = c :: t → isIdentChar c = false := by
      intro c t h
      rcases hhead c t h with rfl | rfl | rfl <;> decide
    have hword : ∀ c t, l = c :: t → (isIdentChar c || c == '$') = false := by
      intro c t h
      rcases hhead c t h with rfl | rfl | rfl <;> decide
    cases v with
    | nil =>
      rw [List.nil_append]
      cases l with
      | nil => rfl
      | cons c cs =>
        unfold splitValue
        rcases hl with h | h | ⟨sp, t, h1, h2, h3, h4⟩
        · simp at h
        · simp at h; rw [if_pos h]
        · have hc : c = ' ' ∨ c = '\t' := by
            cases sp with
            | nil => exact absurd rfl h2
            | cons d sp => simp at h1; rw [h1.1]; exact h3 d (by simp)
          rw [if_neg (by rcases hc with rfl | rfl <;> decide), if_pos (isSpace_iff.mpr hc)]
          have ht : ∀ d u, t = d :: u → isSpaceChar d = false := by
            rintro d u rfl
            rcases h4 with h4 | h4 | ⟨d', w, t', e, k, _⟩ | ⟨w, t', e, _⟩
            · simp at h4
            · simp at h4; subst h4; decide
            · simp at e; rw [e.1]
              have := ident_plain k
              simp [isSpaceChar, this]
            · simp at e; rw [e.1]; decide
          have hd : cs.dropWhile isSpaceChar = t := by
            cases sp with
            | nil => exact absurd rfl h2
            | cons d sp =>
              simp at h1
              rw [h1.2]
              exact (takeWhile_exact (fun x hx => isSpace_iff.mpr (h3 x (by simp [hx]))) ht).2
          rw [hd]
          rcases h4 with rfl | h4 | h4 | h4
          · rfl
          · cases t with
            | nil => rfl
            | cons d u => simp at h4; simp [h4]
          · obtain ⟨d, w, t', rfl, k1, k2⟩ := h4
            have hd' := ident_plain k1
            simp only [List.cons_append]
            rw [if_neg hd'.2.2.2.2.2.1, if_neg hd'.2.2.2.2.2.2.1, if_pos k1]
            have := (takeWhile_exact (p := fun c => isIdentChar c || c == '$') (a := w) (b := '=' :: t')
              (fun x hx => isWord_iff.mpr (k2 x hx)) (by rintro c u h; injection h with h1 _; rw [← h1]; decide)).2
            simp only [this]
          · obtain ⟨w, t', rfl, k1, k2⟩ := h4
            simp only [List.cons_append]
            rw [if_neg (by decide), if_pos trivial]
            have : (w ++ t').takeWhile isIdentChar = w := by
              refine (takeWhile_exact ?_ k2).1
              rcases k1 with rfl | rfl <;> decide
            rw [this, if_pos k1]
    | cons c v =>
      have hc : c ≠ '<' := by rintro rfl; exact hv.1 (by simp)
      rw [List.cons_append]
      unfold splitValue
      rw [if_neg hc]
      by_cases hsp : isSpaceChar c = true
      · rw [if_pos hsp]
        have hw := List.takeWhile_append_dropWhile (p := isSpaceChar) (l := v)
        -- the value has a character after its spaces
        rcases hdw : v.dropWhile isSpaceChar with _ | ⟨d, us⟩
        · exfalso
          rw [hdw, List.append_nil] at hw
          have hall : ∀ x ∈ c :: v, isSpaceChar x = true := by
            intro x hx
            rcases List.mem_cons.mp hx with rfl | hx
            · exact hsp
            · rw [← hw] at hx
              exact (List.all_eq_true.mp (List.all_takeWhile (p := isSpaceChar) (l := v))) x hx
          have hlast : ∃ a e, c :: v = a ++ [e] := ⟨(c :: v).dropLast, (c :: v).getLast (by simp), (List.dropLast_concat_getLast (by simp)).symm⟩
          obtain ⟨a, e, hae⟩ := hlast
          exact (hv.2 a e [] hae (isSpace_iff.mp (hall e (by rw [hae]; simp)))).1 rfl
        · rw [hdw] at hw
          have hds : isSpaceChar d = false := dropWhile_head hdw
          have htw : (v ++ l).takeWhile isSpaceChar = v.takeWhile isSpaceChar ∧ (v ++ l).dropWhile isSpaceChar = d :: us ++ l := by
            have : v ++ l = v.takeWhile isSpaceChar ++ (d :: (us ++ l)) := by
              rw [← List.cons_append, ← List.append_assoc, hw]
            rw [this]
            refine takeWhile_exact ?_ ?_
            · intro x hx
              exact (List.all_eq_true.mp (List.all_takeWhile (p := isSpaceChar) (l := v))) x hx
            · intro x t h; injection h with h1 _; rw [← h1]; exact hds
          have hsuf : ValueText (d :: us) := by
            apply ValueText.suffix (a := c :: v.takeWhile isSpaceChar)
            rw [List.cons_append, hw]; exact hv
          have hb : ¬ OpcodeNext (d :: us) ∧ ¬ DirectiveNext (d :: us) := by
            have hlast : ∃ a e, c :: v.takeWhile isSpaceChar = a ++ [e] :=
              ⟨_, (c :: v.takeWhile isSpaceChar).getLast (by simp), (List.dropLast_concat_getLast (by simp)).symm⟩
            obtain ⟨a, e, hae⟩ := hlast
            refine (hv.2 a e (d :: us) ?_ ?_).2
            · rw [← hw, ← List.cons_append, hae]; simp
            · apply isSpace_iff.mp
              have he : e ∈ c :: v.takeWhile isSpaceChar := by rw [hae]; simp
              rcases List.mem_cons.mp he with rfl | he
              · exact hsp
              · exact (List.all_eq_true.mp (List.all_takeWhile (p := isSpaceChar) (l := v))) e he
          have hlen : (d :: us ++ l).length < n := by
            have : (v ++ l).length = ((v.takeWhile isSpaceChar ++ d :: us) ++ l).length := by rw [hw]
            simp at this hn ⊢
            omega
          rw [htw.1, htw.2, List.cons_append]
          simp only
          have hd1 : d ≠ '<' := by rintro rfl; exact hsuf.1 (by simp)
          rw [if_neg hd1]
          have hrec : splitValue n (d :: (us ++ l)) = (d :: us, l) := ih hsuf hlen
          by_cases hd2 : d = '#'
          · rw [if_pos hd2, if_neg, hrec]
            · simp [hw]
            · intro h
              rw [(takeWhile_stop us hident).1] at h
              apply hb.2
              refine ⟨us.takeWhile isIdentChar, us.dropWhile isIdentChar, ?_, h, ?_⟩
              · rw [hd2, List.cons_append, List.takeWhile_append_dropWhile]
              · intro c u hcu; exact dropWhile_head hcu
          · rw [if_neg hd2]
            by_cases hd3 : isIdentChar d = true
            · rw [if_pos hd3, (takeWhile_stop us hword).1, (takeWhile_stop us hword).2]
              have hus := List.takeWhile_append_dropWhile (p := fun c => isIdentChar c || c == '$') (l := us)
              have hsuf2 : ValueText (us.dropWhile (fun c => isIdentChar c || c == '$')) := by
                apply ValueText.suffix (a := d :: us.takeWhile (fun c => isIdentChar c || c == '$'))
                rw [List.cons_append, hus]; exact hsuf
              have hlen2 : (us.dropWhile (fun c => isIdentChar c || c == '$') ++ l).length < n := by
                have := congrArg List.length hus
                rw [List.length_append] at this
                simp only [List.cons_append, List.length_cons, List.length_append] at hlen ⊢
                omega
              have hrec2 := ih hsuf2 hlen2
              generalize hD : us.dropWhile (fun c => isIdentChar c || c == '$') = D at *
              generalize hT : us.takeWhile (fun c => isIdentChar c || c == '$') = T at *
              have hne : ∀ x, D ++ l ≠ '=' :: x := by
                intro x hx
                cases D with
                | nil =>
                  rcases hhead '=' x hx with h | h | h <;> exact absurd h (by decide)
                | cons e D =>
                  injection hx with h1 _
                  apply hb.1
                  refine ⟨d, T, D, ?_, hd3, ?_⟩
                  · rw [← hus, h1]; rfl
                  · intro y hy
                    rw [← hT] at hy
                    exact isWord_iff.mp ((List.all_eq_true.mp (List.all_takeWhile (p := fun c => isIdentChar c || c == '$') (l := us))) y hy)
              split
              · rename_i x hx; exact absurd hx (hne x)
              · rw [hrec2]
                simp only [Prod.mk.injEq, and_true]
                conv => rhs; rw [← hw, ← hus]
                simp
            · rw [if_neg hd3, hrec]
              simp [hw]
      · rw [if_neg hsp]
        have hsuf : ValueText v := ValueText.suffix (a := [c]) hv
        rw [ih hsuf (by simp at hn ⊢; omega)]

end Verif.Parser
