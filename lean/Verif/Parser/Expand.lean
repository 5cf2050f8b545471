import Verif.Parser.Props

/-! C27: the expansion of variables substitutes the definitions. -/
namespace Verif.Parser

/-! ### Specification -/

/-- No start of `name` other than the empty one and, if `whole` is false, `name` itself is defined. -/
def NoShorter (defs : Defs) (name : Text) (whole : Bool) : Prop :=
  ∀ p q, name = p ++ q → p ≠ [] → (q = [] → whole = true) → defs.lookup p = none

/-- `Subst defs n src dst w`: `dst` is `src` with the variables replaced, where definitions are nested at most `n` deep and `w`
variables are not defined. After a `$`, the variable is the shortest name that is defined; it is replaced by its value, whose
own variables are replaced too. If there is none, the `$` and the identifier after it are removed. -/
inductive Subst (defs : Defs) : Nat → Text → Text → Nat → Prop
  | nil (n : Nat) : Subst defs n [] [] 0
  | char (n : Nat) (c : Char) (src dst : Text) (w : Nat) : c ≠ '$' → Subst defs n src dst w → Subst defs n (c :: src) (c :: dst) w
  | defined (n : Nat) (name v rest v' dst : Text) (w w' : Nat) : name ≠ [] → name.all isIdentChar = true → defs.lookup name = some v →
      NoShorter defs name false → Subst defs n v v' w → Subst defs (n + 1) rest dst w' →
      Subst defs (n + 1) ('$' :: name ++ rest) (v' ++ dst) (w + w')
  | undefined (n : Nat) (name rest dst : Text) (w : Nat) : name.all isIdentChar = true → (∀ c t, rest = c :: t → isIdentChar c = false) →
      NoShorter defs name true → Subst defs n rest dst w → Subst defs n ('$' :: name ++ rest) dst (w + 1)

/-- The variables of a text end within it: whatever follows, they are the same. -/
def Closed (defs : Defs) (v : Text) : Prop :=
  ∀ a q, v = a ++ '$' :: q → q.all isIdentChar = true → ∃ p t, q = p ++ t ∧ p ≠ [] ∧ defs.lookup p ≠ none

/-- All the values are closed. -/
def AllClosed (defs : Defs) : Prop := ∀ name v, defs.lookup name = some v → Closed defs v

/-- The definitions do not go round in circles: every variable mentioned in a value has a lower rank. -/
def Ranked (defs : Defs) (rank : Text → Nat) : Prop :=
  ∀ name v, defs.lookup name = some v → ∀ a m b, v = a ++ '$' :: m ++ b → defs.lookup m ≠ none → rank m < rank name

/-! ### The search for a name -/

theorem scan_defined (defs : Defs) (rest : Text) (v : Text) (q : Text) : ∀ pre, q ≠ [] → q.all isIdentChar = true →
    defs.lookup (pre ++ q) = some v → (∀ p t, q = p ++ t → p ≠ [] → t ≠ [] → defs.lookup (pre ++ p) = none) →
    scanName defs pre (q ++ rest) = (pre ++ q, some v, rest) := by
  induction q with
  | nil => intro pre h; exact absurd rfl h
  | cons c q ih =>
    intro pre _ hid hl hs
    simp only [List.all_cons, Bool.and_eq_true] at hid
    rw [List.cons_append, scanName, if_pos hid.1]
    cases q with
    | nil => rw [hl]; rfl
    | cons d q =>
      have := hs [c] (d :: q) rfl (by simp) (by simp)
      rw [this]
      have hih := ih (pre ++ [c]) (by simp) hid.2 (by simpa using hl) (by
        intro p t hp hne ht
        have := hs (c :: p) t (by rw [hp]; rfl) (by simp) ht
        simpa using this)
      simp only
      rw [hih]
      simp

theorem scan_undefined (defs : Defs) (rest : Text) (hr : ∀ c t, rest = c :: t → isIdentChar c = false) (q : Text) : ∀ pre, q.all isIdentChar = true →
    (∀ p t, q = p ++ t → p ≠ [] → defs.lookup (pre ++ p) = none) →
    scanName defs pre (q ++ rest) = (pre ++ q, none, rest) := by
  induction q with
  | nil =>
    intro pre _ _
    cases rest with
    | nil => simp [scanName]
    | cons c t => simp [scanName, hr c t rfl]
  | cons c q ih =>
    intro pre hid hs
    simp only [List.all_cons, Bool.and_eq_true] at hid
    rw [List.cons_append, scanName, if_pos hid.1, hs [c] q rfl (by simp)]
    simp only
    rw [ih (pre ++ [c]) hid.2 (by
      intro p t hp hne
      have := hs (c :: p) t (by rw [hp]; rfl) (by simp)
      simpa using this)]
    simp

theorem scan_cases (defs : Defs) (s : Text) : ∀ pre, (∃ q v rest, s = q ++ rest ∧ q ≠ [] ∧ q.all isIdentChar = true ∧
      defs.lookup (pre ++ q) = some v ∧ (∀ p t, q = p ++ t → p ≠ [] → t ≠ [] → defs.lookup (pre ++ p) = none)) ∨
    (∃ q rest, s = q ++ rest ∧ q.all isIdentChar = true ∧ (∀ c t, rest = c :: t → isIdentChar c = false) ∧
      (∀ p t, q = p ++ t → p ≠ [] → defs.lookup (pre ++ p) = none)) := by
  induction s with
  | nil =>
    intro pre
    right
    refine ⟨[], [], rfl, rfl, by simp, ?_⟩
    intro p t h hp
    have := List.append_eq_nil_iff.mp h.symm
    exact absurd this.1 hp
  | cons c s ih =>
    intro pre
    cases hc : isIdentChar c with
    | false =>
      right
      refine ⟨[], c :: s, rfl, rfl, ?_, ?_⟩
      · intro d t h; injection h with h1 h2; rw [← h1]; exact hc
      · intro p t h hp
        have := List.append_eq_nil_iff.mp h.symm
        exact absurd this.1 hp
    | true =>
      cases hl : defs.lookup (pre ++ [c]) with
      | some v =>
        left
        refine ⟨[c], v, s, rfl, by simp, by simp [hc], hl, ?_⟩
        intro p t h hp ht
        cases p with
        | nil => exact absurd rfl hp
        | cons a p =>
          simp only [List.cons_append, List.cons.injEq] at h
          have := List.append_eq_nil_iff.mp h.2.symm
          exact absurd this.2 ht
      | none =>
        have lift : ∀ (p t q : Text), c :: q = p ++ t → p ≠ [] → p = [c] ∨ ∃ p', p = c :: p' ∧ p' ≠ [] ∧ q = p' ++ t := by
          intro p t q h hp
          cases p with
          | nil => exact absurd rfl hp
          | cons a p =>
            simp only [List.cons_append, List.cons.injEq] at h
            cases p with
            | nil => left; rw [← h.1]
            | cons b p => right; exact ⟨b :: p, by rw [← h.1], by simp, h.2⟩
        rcases ih (pre ++ [c]) with ⟨q, v, rest, e, h1, h2, h3, h4⟩ | ⟨q, rest, e, h1, h2, h3⟩
        · left
          refine ⟨c :: q, v, rest, by rw [e]; rfl, by simp, by simp [hc, h2], by simpa using h3, ?_⟩
          intro p t h hp ht
          rcases lift p t q h hp with rfl | ⟨p', rfl, hp', hq⟩
          · exact hl
          · have := h4 p' t hq hp' ht
            simpa using this
        · right
          refine ⟨c :: q, rest, by rw [e]; rfl, by simp [hc, h1], h2, ?_⟩
          intro p t h hp
          rcases lift p t q h hp with rfl | ⟨p', rfl, hp', hq⟩
          · exact hl
          · have := h3 p' t hq hp'
            simpa using this

/-! ### One pass -/

/-- One pass, with enough room. -/
def pass (defs : Defs) (s : Text) : Text × Nat × List Msg := expandPass defs (s.length + 1) s

theorem expandPass_room (defs : Defs) (n : Nat) : ∀ m s, s.length < n → s.length < m → expandPass defs n s = expandPass defs m s := by
  induction n with
  | zero => intro m s h; omega
  | succ n ih =>
    intro m s hn hm
    cases m with
    | zero => omega
    | succ m =>
      cases s with
      | nil => rfl
      | cons c cs =>
        simp only [List.length_cons] at hn hm
        unfold expandPass
        by_cases hc : c = '$'
        · rw [if_pos hc, if_pos hc]
          have hlen : ∀ rest : Text, (∃ q, cs = q ++ rest) → expandPass defs n rest = expandPass defs m rest := by
            rintro rest ⟨q, rfl⟩
            simp only [List.length_append] at hn hm
            exact ih m rest (by omega) (by omega)
          rcases scan_cases defs cs [] with ⟨q, v, rest, e, h1, h2, h3, h4⟩ | ⟨q, rest, e, h1, h2, h3⟩
          · have := scan_defined defs rest v q [] h1 h2 h3 h4
            rw [← e] at this
            have hl := hlen rest ⟨q, e⟩
            rw [this]
            cases q <;> simp only [List.nil_append, hl]
          · have := scan_undefined defs rest h2 q [] h1 h3
            rw [← e] at this
            have hl := hlen rest ⟨q, e⟩
            rw [this]
            cases q <;> simp only [List.nil_append, hl]
        · rw [if_neg hc, if_neg hc, ih m cs (by omega) (by omega)]

theorem pass_nil (defs : Defs) : pass defs [] = ([], 0, []) := rfl

theorem pass_char (defs : Defs) {c : Char} (hc : c ≠ '$') (s : Text) :
    pass defs (c :: s) = (c :: (pass defs s).1, (pass defs s).2.1, (pass defs s).2.2) := by
  unfold pass
  rw [List.length_cons, expandPass, if_neg hc]

theorem pass_defined (defs : Defs) {name v : Text} (rest : Text) (h1 : name ≠ []) (h2 : name.all isIdentChar = true)
    (h3 : defs.lookup name = some v) (h4 : NoShorter defs name false) :
    pass defs ('$' :: name ++ rest) = (v ++ (pass defs rest).1, (pass defs rest).2.1 + 1, (pass defs rest).2.2) := by
  have hs := scan_defined defs rest v name [] h1 h2 h3 (fun p t e hp ht => h4 p t e hp (fun h => absurd h ht))
  unfold pass
  rw [List.cons_append, List.length_cons, expandPass, if_pos rfl, hs]
  cases name with
  | nil => exact absurd rfl h1
  | cons a name =>
    simp only [List.nil_append]
    rw [expandPass_room defs _ (rest.length + 1) rest (by simp; omega) (by omega)]

theorem pass_undefined (defs : Defs) {name : Text} (rest : Text) (h1 : name.all isIdentChar = true)
    (h2 : ∀ c t, rest = c :: t → isIdentChar c = false) (h3 : NoShorter defs name true) :
    ∃ m, pass defs ('$' :: name ++ rest) = ((pass defs rest).1, (pass defs rest).2.1 + 1, m :: (pass defs rest).2.2) := by
  have hs := scan_undefined defs rest h2 name [] h1 (fun p t e hp => h3 p t e hp (fun _ => rfl))
  unfold pass
  rw [List.cons_append, List.length_cons, expandPass, if_pos rfl, hs]
  cases name with
  | nil =>
    simp only [List.nil_append]
    exact ⟨_, rfl⟩
  | cons a name =>
    simp only [List.nil_append]
    rw [expandPass_room defs _ (rest.length + 1) rest (by simp; omega) (by omega)]
    exact ⟨_, rfl⟩

/-- Every text is read in one of four ways. -/
theorem text_cases (defs : Defs) (s : Text) : s = [] ∨ (∃ c t, s = c :: t ∧ c ≠ '$') ∨
    (∃ name v rest, s = '$' :: name ++ rest ∧ name ≠ [] ∧ name.all isIdentChar = true ∧ defs.lookup name = some v ∧ NoShorter defs name false) ∨
    (∃ name rest, s = '$' :: name ++ rest ∧ name.all isIdentChar = true ∧ (∀ c t, rest = c :: t → isIdentChar c = false) ∧ NoShorter defs name true) := by
  cases s with
  | nil => left; rfl
  | cons c s =>
    right
    by_cases hc : c = '$'
    · right
      subst hc
      rcases scan_cases defs s [] with ⟨q, v, rest, e, h1, h2, h3, h4⟩ | ⟨q, rest, e, h1, h2, h3⟩
      · left
        refine ⟨q, v, rest, by rw [e]; rfl, h1, h2, h3, ?_⟩
        intro p t hp hne ht
        by_cases h : t = []
        · exact absurd (ht h) (by simp)
        · exact h4 p t hp hne h
      · right
        exact ⟨q, rest, by rw [e]; rfl, h1, h2, fun p t hp hne _ => h3 p t hp hne⟩
    · left; exact ⟨c, s, rfl, hc⟩

/-- Induction along the reading of a text. -/
theorem text_induction (defs : Defs) {P : Text → Prop} (hnil : P []) (hchar : ∀ c t, c ≠ '$' → P t → P (c :: t))
    (hdef : ∀ name v rest, name ≠ [] → name.all isIdentChar = true → defs.lookup name = some v → NoShorter defs name false → P rest → P ('$' :: name ++ rest))
    (hund : ∀ name rest, name.all isIdentChar = true → (∀ c t, rest = c :: t → isIdentChar c = false) → NoShorter defs name true → P rest → P ('$' :: name ++ rest))
    (s : Text) : P s := by
  have h : ∀ n s, s.length ≤ n → P s := by
    intro n
    induction n with
    | zero => intro s hs; rw [List.eq_nil_of_length_eq_zero (by omega : s.length = 0)]; exact hnil
    | succ n ih =>
      intro s hs
      rcases text_cases defs s with rfl | ⟨c, t, rfl, hc⟩ | ⟨name, v, rest, rfl, h1, h2, h3, h4⟩ | ⟨name, rest, rfl, h1, h2, h3⟩
      · exact hnil
      · exact hchar c t hc (ih t (by simp at hs; omega))
      · exact hdef name v rest h1 h2 h3 h4 (ih rest (by simp at hs; omega))
      · exact hund name rest h1 h2 h3 (ih rest (by simp at hs; omega))
  exact h s.length s (Nat.le_refl _)

theorem pass_zero (defs : Defs) (s : Text) : (pass defs s).2.1 = 0 → pass defs s = (s, 0, []) ∧ '$' ∉ s := by
  induction s using text_induction defs with
  | hnil => intro _; exact ⟨rfl, by simp⟩
  | hchar c t hc ih =>
    intro h
    rw [pass_char defs hc] at h ⊢
    have := ih h
    rw [this.1]
    exact ⟨rfl, by simp [this.2, Ne.symm hc]⟩
  | hdef name v rest h1 h2 h3 h4 ih =>
    intro h
    rw [pass_defined defs rest h1 h2 h3 h4] at h
    simp at h
  | hund name rest h1 h2 h3 ih =>
    intro h
    obtain ⟨m, hm⟩ := pass_undefined defs rest h1 h2 h3
    rw [hm] at h
    simp at h

theorem pass_none (defs : Defs) (s : Text) (h : '$' ∉ s) : pass defs s = (s, 0, []) := by
  induction s with
  | nil => rfl
  | cons c s ih =>
    simp only [List.mem_cons, not_or] at h
    rw [pass_char defs (Ne.symm h.1), ih h.2]

/-! ### Substitution -/

theorem Subst.clean {defs : Defs} {n w : Nat} {s d : Text} (h : Subst defs n s d w) : '$' ∉ d := by
  induction h with
  | nil => simp
  | char n c s d w hc _ ih => simp [ih, Ne.symm hc]
  | defined n name v rest v' d w w' _ _ _ _ _ _ ih1 ih2 => simp [ih1, ih2]
  | undefined n name rest d w _ _ _ _ ih => exact ih

theorem Subst.same {defs : Defs} (n : Nat) {s : Text} (h : '$' ∉ s) : Subst defs n s s 0 := by
  induction s with
  | nil => exact .nil n
  | cons c s ih =>
    simp only [List.mem_cons, not_or] at h
    exact .char n c s s 0 (Ne.symm h.1) (ih h.2)

theorem Subst.mono {defs : Defs} {n w : Nat} {s d : Text} (h : Subst defs n s d w) : ∀ m, n ≤ m → Subst defs m s d w := by
  induction h with
  | nil => intro m _; exact .nil m
  | char n c s d w hc _ ih => intro m hm; exact .char m c s d w hc (ih m hm)
  | defined n name v rest v' d w w' h1 h2 h3 h4 _ _ ih1 ih2 =>
    intro m hm
    cases m with
    | zero => omega
    | succ m => exact .defined m name v rest v' d w w' h1 h2 h3 h4 (ih1 m (by omega)) (ih2 (m + 1) hm)
  | undefined n name rest d w h1 h2 h3 _ ih => intro m hm; exact .undefined m name rest d w h1 h2 h3 (ih m hm)

theorem Closed.tail {defs : Defs} {a b : Text} (h : Closed defs (a ++ b)) : Closed defs b := by
  intro c q e hq
  exact h (a ++ c) q (by rw [e]; simp) hq

theorem Subst.append {defs : Defs} {n w w2 : Nat} {s d r e : Text} (h : Subst defs n s d w) (hc : Closed defs s) (k : Subst defs n r e w2) :
    Subst defs n (s ++ r) (d ++ e) (w + w2) := by
  induction h with
  | nil => simpa using k
  | char n c s d w hne _ ih =>
    exact .char n c _ _ _ hne (ih (Closed.tail (a := [c]) hc) k)
  | defined n name v rest v' d w w' h1 h2 h3 h4 h5 _ _ ih2 =>
    have := ih2 (Closed.tail (a := '$' :: name) hc) k
    rw [List.append_assoc, List.append_assoc, Nat.add_assoc]
    exact .defined n name v (rest ++ r) v' _ _ _ h1 h2 h3 h4 h5 this
  | undefined n name rest d w h1 h2 h3 _ ih =>
    have := ih (Closed.tail (a := '$' :: name) hc) k
    rw [List.append_assoc, show w + 1 + w2 = (w + w2) + 1 by omega]
    refine .undefined n name (rest ++ r) _ _ h1 ?_ h3 this
    intro c t ht
    cases rest with
    | nil =>
      obtain ⟨p, t', e1, e2, e3⟩ := hc [] name (by simp) h1
      exact absurd (h3 p t' e1 e2 (fun _ => rfl)) e3
    | cons a rest =>
      simp only [List.cons_append, List.cons.injEq] at ht
      rw [← ht.1]
      exact h2 a rest rfl

/-- A pass undoes one level of nesting. -/
theorem Subst.pass_down {defs : Defs} (hcl : AllClosed defs) {n w : Nat} {s d : Text} (h : Subst defs (n + 1) s d w) :
    ∃ w2, w = (pass defs s).2.2.length + w2 ∧ Subst defs n (pass defs s).1 d w2 := by
  generalize hm : n + 1 = m at h
  induction h with
  | nil => exact ⟨0, rfl, .nil n⟩
  | char m c s d w hc _ ih =>
    obtain ⟨w2, e, k⟩ := ih hm
    rw [pass_char defs hc]
    exact ⟨w2, e, .char n c _ _ _ hc k⟩
  | defined m name v rest v' d w w' h1 h2 h3 h4 h5 _ _ ih2 =>
    obtain ⟨w2, e, k⟩ := ih2 hm
    have : n = m := by omega
    subst this
    rw [pass_defined defs rest h1 h2 h3 h4]
    exact ⟨w + w2, by simp only; omega, Subst.append h5 (hcl name v h3) k⟩
  | undefined m name rest d w h1 h2 h3 _ ih =>
    obtain ⟨w2, e, k⟩ := ih hm
    obtain ⟨msg, hp⟩ := pass_undefined defs rest h1 h2 h3
    rw [hp]
    exact ⟨w2, by simp only [List.length_cons]; omega, k⟩

/-- Without nesting a pass does all. -/
theorem Subst.pass_zero {defs : Defs} {w : Nat} {s d : Text} (h : Subst defs 0 s d w) : (pass defs s).1 = d ∧ w = (pass defs s).2.2.length := by
  generalize hm : 0 = m at h
  induction h with
  | nil => exact ⟨rfl, rfl⟩
  | char m c s d w hc _ ih =>
    rw [pass_char defs hc]
    exact ⟨by rw [(ih hm).1], (ih hm).2⟩
  | defined m => omega
  | undefined m name rest d w h1 h2 h3 _ ih =>
    obtain ⟨msg, hp⟩ := pass_undefined defs rest h1 h2 h3
    rw [hp]
    exact ⟨(ih hm).1, by simp only [List.length_cons]; rw [← (ih hm).2]⟩

theorem expandVars_succ (defs : Defs) (k : Nat) (s : Text) : expandVars defs (k + 1) s =
    if (pass defs s).2.1 = 0 then some ((pass defs s).1, (pass defs s).2.2)
    else (expandVars defs k (pass defs s).1).map (fun x => (x.1, (pass defs s).2.2 ++ x.2)) := by
  rw [expandVars]
  unfold pass
  rcases expandPass defs (s.length + 1) s with ⟨dst, _ | c, w⟩
  · rfl
  · simp only [Nat.add_one_ne_zero, if_false]
    cases expandVars defs k dst with
    | none => rfl
    | some x => rfl

/-- A substitution of nesting `n` is found in `n + 2` passes. -/
theorem expand_complete {defs : Defs} (hcl : AllClosed defs) (n : Nat) : ∀ {w : Nat} {s d : Text}, Subst defs n s d w → ∀ k, n + 2 ≤ k →
    ∃ ws, expandVars defs k s = some (d, ws) ∧ ws.length = w := by
  induction n with
  | zero =>
    intro w s d h k hk
    obtain ⟨e1, e2⟩ := h.pass_zero
    obtain ⟨k, rfl⟩ : ∃ j, k = j + 2 := ⟨k - 2, by omega⟩
    rw [expandVars_succ]
    split
    · exact ⟨_, by rw [e1], e2.symm⟩
    · rw [expandVars_succ, e1, pass_none defs d h.clean]
      simp [e2]
  | succ n ih =>
    intro w s d h k hk
    obtain ⟨w2, e, h2⟩ := h.pass_down hcl
    obtain ⟨k, rfl⟩ : ∃ j, k = j + 1 := ⟨k - 1, by omega⟩
    rw [expandVars_succ]
    split
    · rename_i h0
      have hz := pass_zero defs s h0
      have h3 : d = s := by
        have := (ih h2 (n + 2) (Nat.le_refl _))
        rw [hz.1] at this
        simp only at this
        rw [expandVars_succ, pass_none defs s hz.2] at this
        obtain ⟨ws, e1, _⟩ := this
        simp at e1
        exact e1.1.symm
      obtain ⟨ws, e1, e2⟩ := ih h2 (n + 2) (Nat.le_refl _)
      rw [hz.1] at e1 e ⊢
      rw [expandVars_succ, pass_none defs s hz.2] at e1
      simp at e1
      exact ⟨[], by rw [h3], by simp at e; rw [e, ← e2, ← e1.2]⟩
    · obtain ⟨ws, e1, e2⟩ := ih h2 k (by omega)
      rw [e1]
      exact ⟨_, rfl, by simp [e2, e]⟩

/-- A substitution of a text in two parts is made of those of the parts. -/
theorem Subst.split {defs : Defs} {n : Nat} (s : Text) : ∀ {w : Nat} {d r : Text}, Closed defs s → Subst defs n (s ++ r) d w →
    ∃ d1 d2 w1 w2, d = d1 ++ d2 ∧ w = w1 + w2 ∧ Subst defs n s d1 w1 ∧ Subst defs n r d2 w2 := by
  have uniqDef : ∀ {name name' v rest rest' : Text}, '$' :: name ++ rest = '$' :: name' ++ rest' → name ≠ [] → name.all isIdentChar = true →
      defs.lookup name = some v → NoShorter defs name false → name' ≠ [] → name'.all isIdentChar = true → (defs.lookup name').isSome = true →
      NoShorter defs name' false → name = name' ∧ rest = rest' := by
    intro name name' v rest rest' e h1 h2 h3 h4 k1 k2 k3 k4
    obtain ⟨v', hv'⟩ := Option.isSome_iff_exists.mp k3
    have a := scan_defined defs rest v name [] h1 h2 h3 (fun p t e hp ht => h4 p t e hp (fun h => absurd h ht))
    have b := scan_defined defs rest' v' name' [] k1 k2 hv' (fun p t e hp ht => k4 p t e hp (fun h => absurd h ht))
    simp only [List.cons_append, List.cons.injEq, true_and] at e
    rw [e, b] at a
    simp only [List.nil_append, Prod.mk.injEq] at a
    exact ⟨a.1.symm, a.2.2.symm⟩
  have noBoth : ∀ {name name' v rest rest' : Text}, '$' :: name ++ rest = '$' :: name' ++ rest' → name ≠ [] → name.all isIdentChar = true →
      defs.lookup name = some v → NoShorter defs name false → name'.all isIdentChar = true → (∀ c t, rest' = c :: t → isIdentChar c = false) →
      NoShorter defs name' true → False := by
    intro name name' v rest rest' e h1 h2 h3 h4 k1 k2 k3
    have a := scan_defined defs rest v name [] h1 h2 h3 (fun p t e hp ht => h4 p t e hp (fun h => absurd h ht))
    have b := scan_undefined defs rest' k2 name' [] k1 (fun p t e hp => k3 p t e hp (fun _ => rfl))
    simp only [List.cons_append, List.cons.injEq, true_and] at e
    rw [e, b] at a
    simp at a
  have uniqUnd : ∀ {name name' rest rest' : Text}, '$' :: name ++ rest = '$' :: name' ++ rest' → name.all isIdentChar = true →
      (∀ c t, rest = c :: t → isIdentChar c = false) → NoShorter defs name true → name'.all isIdentChar = true →
      (∀ c t, rest' = c :: t → isIdentChar c = false) → NoShorter defs name' true → name = name' ∧ rest = rest' := by
    intro name name' rest rest' e h1 h2 h3 k1 k2 k3
    have a := scan_undefined defs rest h2 name [] h1 (fun p t e hp => h3 p t e hp (fun _ => rfl))
    have b := scan_undefined defs rest' k2 name' [] k1 (fun p t e hp => k3 p t e hp (fun _ => rfl))
    simp only [List.cons_append, List.cons.injEq, true_and] at e
    rw [e, b] at a
    simp only [List.nil_append, Prod.mk.injEq] at a
    exact ⟨a.1.symm, a.2.2.symm⟩
  induction s using text_induction defs with
  | hnil => intro w d r _ h; exact ⟨[], d, 0, w, rfl, by omega, .nil n, h⟩
  | hchar c t hc ih =>
    intro w d r hcl h
    generalize hx : c :: t ++ r = x at h
    cases h with
    | nil => simp at hx
    | char _ c' s' d' _ hc' h =>
      simp only [List.cons_append, List.cons.injEq] at hx
      obtain ⟨rfl, rfl⟩ := hx
      obtain ⟨d1, d2, w1, w2, e1, e2, k1, k2⟩ := ih (Closed.tail (a := [c]) hcl) h
      exact ⟨c :: d1, d2, w1, w2, by rw [e1]; rfl, e2, .char n c t d1 w1 hc k1, k2⟩
    | defined => simp only [List.cons_append, List.cons.injEq] at hx; exact absurd hx.1 hc
    | undefined => simp only [List.cons_append, List.cons.injEq] at hx; exact absurd hx.1 hc
  | hdef name v rest h1 h2 h3 h4 ih =>
    intro w d r hcl h
    generalize hx : '$' :: name ++ rest ++ r = x at h
    rw [List.append_assoc] at hx
    cases h with
    | nil => simp at hx
    | char _ c' s' d' _ hc' h => simp only [List.cons_append, List.cons.injEq] at hx; exact absurd hx.1.symm hc'
    | defined m name' v2 rest' v' d' wa wb k1 k2 k3 k4 k5 k6 =>
      obtain ⟨rfl, rfl⟩ := uniqDef hx h1 h2 h3 h4 k1 k2 (by rw [k3]; rfl) k4
      obtain ⟨d1, d2, w1, w2, e1, e2, m1, m2⟩ := ih (Closed.tail (a := '$' :: name) hcl) k6
      exact ⟨v' ++ d1, d2, wa + w1, w2, by rw [e1]; simp, by omega, .defined m name v2 rest v' d1 wa w1 k1 k2 k3 k4 k5 m1, m2⟩
    | undefined _ name' rest' d' wa k1 k2 k3 k4 => exact absurd (noBoth hx h1 h2 h3 h4 k1 k2 k3) id
  | hund name rest h1 h2 h3 ih =>
    intro w d r hcl h
    have h2' : ∀ c t, rest ++ r = c :: t → isIdentChar c = false := by
      intro c t ht
      cases rest with
      | nil =>
        obtain ⟨p, t', e1, e2, e3⟩ := hcl [] name (by simp) h1
        exact absurd (h3 p t' e1 e2 (fun _ => rfl)) e3
      | cons a rest =>
        simp only [List.cons_append, List.cons.injEq] at ht
        rw [← ht.1]
        exact h2 a rest rfl
    generalize hx : '$' :: name ++ rest ++ r = x at h
    rw [List.append_assoc] at hx
    cases h with
    | nil => simp at hx
    | char _ c' s' d' _ hc' h => simp only [List.cons_append, List.cons.injEq] at hx; exact absurd hx.1.symm hc'
    | defined m name' v2 rest' v' d' wa wb k1 k2 k3 k4 k5 k6 => exact absurd (noBoth hx.symm k1 k2 k3 k4 h1 h2' h3) id
    | undefined _ name' rest' d' wa k1 k2 k3 k4 =>
      obtain ⟨rfl, rfl⟩ := uniqUnd hx h1 h2' h3 k1 k2 k3
      obtain ⟨d1, d2, w1, w2, e1, e2, m1, m2⟩ := ih (Closed.tail (a := '$' :: name) hcl) k4
      exact ⟨d1, d2, w1 + 1, w2, e1, by omega, .undefined n name rest d1 w1 h1 h2 h3 m1, m2⟩

/-- What a pass leaves, substituted, is the text substituted. -/
theorem Subst.pass_up {defs : Defs} (hcl : AllClosed defs) {n : Nat} (s : Text) : ∀ {w : Nat} {d : Text}, Subst defs n (pass defs s).1 d w →
    Subst defs (n + 1) s d ((pass defs s).2.2.length + w) := by
  induction s using text_induction defs with
  | hnil => intro w d h; have := h.mono (n + 1) (by omega); simpa [pass_nil] using this
  | hchar c t hc ih =>
    intro w d h
    rw [pass_char defs hc] at h ⊢
    simp only at h ⊢
    generalize hx : c :: (pass defs t).1 = x at h
    cases h with
    | nil => simp at hx
    | char _ c' _ d' _ _ h =>
      simp only [List.cons.injEq] at hx
      obtain ⟨rfl, rfl⟩ := hx
      exact .char _ c t d' _ hc (ih h)
    | defined => simp only [List.cons_append, List.cons.injEq] at hx; exact absurd hx.1 hc
    | undefined => simp only [List.cons_append, List.cons.injEq] at hx; exact absurd hx.1 hc
  | hdef name v rest h1 h2 h3 h4 ih =>
    intro w d h
    rw [pass_defined defs rest h1 h2 h3 h4] at h ⊢
    simp only at h ⊢
    obtain ⟨d1, d2, w1, w2, rfl, rfl, k1, k2⟩ := Subst.split v (hcl name v h3) h
    rw [show (pass defs rest).2.2.length + (w1 + w2) = w1 + ((pass defs rest).2.2.length + w2) by omega]
    exact .defined n name v rest d1 d2 _ _ h1 h2 h3 h4 k1 (ih k2)
  | hund name rest h1 h2 h3 ih =>
    intro w d h
    obtain ⟨msg, hp⟩ := pass_undefined defs rest h1 h2 h3
    rw [hp] at h ⊢
    simp only [List.length_cons] at h ⊢
    rw [show (pass defs rest).2.2.length + 1 + w = ((pass defs rest).2.2.length + w) + 1 by omega]
    exact .undefined _ name rest d _ h1 h2 h3 (ih h)

theorem expand_sound {defs : Defs} (hcl : AllClosed defs) (k : Nat) : ∀ {s d : Text} {ws : List Msg}, expandVars defs k s = some (d, ws) →
    ∃ n, Subst defs n s d ws.length := by
  induction k with
  | zero => intro s d ws h; simp [expandVars] at h
  | succ k ih =>
    intro s d ws h
    rw [expandVars_succ] at h
    split at h
    · rename_i h0
      have hz := pass_zero defs s h0
      rw [hz.1] at h
      simp only [Option.some.injEq, Prod.mk.injEq] at h
      obtain ⟨rfl, rfl⟩ := h
      exact ⟨0, Subst.same 0 hz.2⟩
    · cases he : expandVars defs k (pass defs s).1 with
      | none => rw [he] at h; simp at h
      | some x =>
        rw [he] at h
        simp only [Option.map_some, Option.some.injEq, Prod.mk.injEq] at h
        obtain ⟨rfl, rfl⟩ := h
        obtain ⟨n, hn⟩ := ih (s := (pass defs s).1) (d := x.1) (ws := x.2) he
        refine ⟨n + 1, ?_⟩
        rw [List.length_append]
        exact Subst.pass_up hcl s hn

/-- **C27.** When the values of the definitions are closed, the expansion of a text finishes exactly if the recursive substitution
of its variables is finite, and it gives that substitution, with one warning for each `$` without a known name. -/
theorem expand_iff_partial {defs : Defs} (hcl : AllClosed defs) (s d : Text) (w : Nat) :
    (∃ k ws, expandVars defs k s = some (d, ws) ∧ ws.length = w) ↔ ∃ n, Subst defs n s d w := by
  constructor
  · rintro ⟨k, ws, h, rfl⟩; exact expand_sound hcl k h
  · rintro ⟨n, h⟩
    obtain ⟨ws, h1, h2⟩ := expand_complete hcl n h (n + 2) (Nat.le_refl _)
    exact ⟨_, ws, h1, h2⟩

/-- **C27.** A text without `$` is unchanged, whatever the definitions. -/
theorem expand_plain (defs : Defs) (s : Text) (h : '$' ∉ s) (k : Nat) : expandVars defs (k + 1) s = some (s, []) := by
  rw [expandVars_succ, pass_none defs s h]; rfl

/-- The names that a text mentions are below a rank. -/
def Below (defs : Defs) (rank : Text → Nat) (R : Nat) (s : Text) : Prop :=
  ∀ a m b, s = a ++ '$' :: m ++ b → defs.lookup m ≠ none → rank m < R

theorem subst_exists {defs : Defs} {rank : Text → Nat} (hr : Ranked defs rank) (R : Nat) : ∀ s, Below defs rank R s → ∃ d w, Subst defs R s d w := by
  induction R with
  | zero =>
    intro s
    induction s using text_induction defs with
    | hnil => intro _; exact ⟨[], 0, .nil 0⟩
    | hchar c t hc ih =>
      intro hb
      obtain ⟨d, w, h⟩ := ih (fun a m b e => hb (c :: a) m b (by rw [e]; rfl))
      exact ⟨_, _, .char 0 c t d w hc h⟩
    | hdef name v rest h1 h2 h3 h4 ih =>
      intro hb
      have := hb [] name rest rfl (by rw [h3]; simp)
      omega
    | hund name rest h1 h2 h3 ih =>
      intro hb
      obtain ⟨d, w, h⟩ := ih (fun a m b e => hb ('$' :: name ++ a) m b (by rw [e]; simp))
      exact ⟨_, _, .undefined 0 name rest d w h1 h2 h3 h⟩
  | succ R ihR =>
    intro s
    induction s using text_induction defs with
    | hnil => intro _; exact ⟨[], 0, .nil _⟩
    | hchar c t hc ih =>
      intro hb
      obtain ⟨d, w, h⟩ := ih (fun a m b e => hb (c :: a) m b (by rw [e]; rfl))
      exact ⟨_, _, .char _ c t d w hc h⟩
    | hdef name v rest h1 h2 h3 h4 ih =>
      intro hb
      have hn := hb [] name rest rfl (by rw [h3]; simp)
      obtain ⟨v', w, hv⟩ := ihR v (fun a m b e hm => by have := hr name v h3 a m b e hm; omega)
      obtain ⟨d, w', h⟩ := ih (fun a m b e => hb ('$' :: name ++ a) m b (by rw [e]; simp))
      exact ⟨_, _, .defined R name v rest v' d w w' h1 h2 h3 h4 hv h⟩
    | hund name rest h1 h2 h3 ih =>
      intro hb
      obtain ⟨d, w, h⟩ := ih (fun a m b e => hb ('$' :: name ++ a) m b (by rw [e]; simp))
      exact ⟨_, _, .undefined _ name rest d w h1 h2 h3 h⟩

/-- There is a bound on the ranks of the names defined. -/
theorem rank_bound (defs : Defs) (rank : Text → Nat) : ∃ R, ∀ m, defs.lookup m ≠ none → rank m < R := by
  induction defs with
  | nil => exact ⟨0, fun m h => absurd rfl h⟩
  | cons p defs ih =>
    obtain ⟨R, h⟩ := ih
    refine ⟨max R (rank p.1 + 1), ?_⟩
    intro m hm
    rw [List.lookup_cons] at hm
    cases hmp : m == p.1 with
    | true =>
      have : m = p.1 := by simpa using hmp
      rw [this]; omega
    | false =>
      rw [hmp] at hm
      have := h m hm
      omega

/-- **C25/C27.** If the definitions do not go round in circles and their values are closed, the expansion of every text finishes. -/
theorem expand_terminates_partial {defs : Defs} {rank : Text → Nat} (hcl : AllClosed defs) (hr : Ranked defs rank) :
    ∃ k, ∀ s, ∃ d ws, expandVars defs k s = some (d, ws) ∧ Subst defs k s d ws.length := by
  obtain ⟨R, hR⟩ := rank_bound defs rank
  refine ⟨R + 2, ?_⟩
  intro s
  obtain ⟨d, w, h⟩ := subst_exists hr R s (fun a m b _ hm => hR m hm)
  obtain ⟨ws, h1, h2⟩ := expand_complete hcl R h (R + 2) (Nat.le_refl _)
  exact ⟨d, ws, h1, by rw [h2]; exact h.mono _ (by omega)⟩

/-- Two definitions, one using the other. -/
def sampleDefs : Defs := [("KEY".toList, "c4".toList), ("K".toList, "$N_".toList), ("N".toList, "7".toList)]

example : expandVars sampleDefs 4 "x$KEY$N$zz y$".toList = some ("x7_EY7 y".toList, [.undefinedVariable "zz".toList, .expectedVariable]) := by
  decide +kernel

/-- **C25.** A variable defined as itself is never expanded: no number of passes is enough. -/
theorem expand_terminates_violated (k : Nat) : expandVars [("a".toList, "$a".toList)] k "$a".toList = none := by
  have h : pass [("a".toList, "$a".toList)] "$a".toList = ("$a".toList, 1, []) := by decide +kernel
  induction k with
  | zero => rfl
  | succ k ih => rw [expandVars_succ, h]; simp only [ih]; rfl

/-! ### Without conditions on the values: rounds of replacement -/

/-- `Once defs src dst w`: `dst` is `src` after one round: every variable is replaced by its value as it was written, the variables
of the value staying as they are; `w` variables are not defined and are removed. -/
inductive Once (defs : Defs) : Text → Text → Nat → Prop
  | nil : Once defs [] [] 0
  | char (c : Char) (src dst : Text) (w : Nat) : c ≠ '$' → Once defs src dst w → Once defs (c :: src) (c :: dst) w
  | defined (name v rest dst : Text) (w : Nat) : name ≠ [] → name.all isIdentChar = true → defs.lookup name = some v →
      NoShorter defs name false → Once defs rest dst w → Once defs ('$' :: name ++ rest) (v ++ dst) w
  | undefined (name rest dst : Text) (w : Nat) : name.all isIdentChar = true → (∀ c t, rest = c :: t → isIdentChar c = false) →
      NoShorter defs name true → Once defs rest dst w → Once defs ('$' :: name ++ rest) dst (w + 1)

/-- Rounds are made as long as there is a `$`. -/
inductive Rounds (defs : Defs) : Text → Text → Nat → Prop
  | done (s : Text) : '$' ∉ s → Rounds defs s s 0
  | round (s t d : Text) (w w' : Nat) : '$' ∈ s → Once defs s t w → Rounds defs t d w' → Rounds defs s d (w + w')

theorem pass_once (defs : Defs) (s : Text) : Once defs s (pass defs s).1 (pass defs s).2.2.length := by
  induction s using text_induction defs with
  | hnil => exact .nil
  | hchar c t hc ih => rw [pass_char defs hc]; exact .char c _ _ _ hc ih
  | hdef name v rest h1 h2 h3 h4 ih => rw [pass_defined defs rest h1 h2 h3 h4]; exact .defined name v rest _ _ h1 h2 h3 h4 ih
  | hund name rest h1 h2 h3 ih =>
    obtain ⟨msg, hp⟩ := pass_undefined defs rest h1 h2 h3
    rw [hp]
    exact .undefined name rest _ _ h1 h2 h3 ih

theorem Once.is_pass {defs : Defs} {s t : Text} {w : Nat} (h : Once defs s t w) : t = (pass defs s).1 ∧ w = (pass defs s).2.2.length := by
  induction h with
  | nil => exact ⟨rfl, rfl⟩
  | char c s d w hc _ ih => rw [pass_char defs hc]; exact ⟨by rw [ih.1], ih.2⟩
  | defined name v rest d w h1 h2 h3 h4 _ ih => rw [pass_defined defs rest h1 h2 h3 h4]; exact ⟨by rw [ih.1], ih.2⟩
  | undefined name rest d w h1 h2 h3 _ ih =>
    obtain ⟨msg, hp⟩ := pass_undefined defs rest h1 h2 h3
    rw [hp]
    exact ⟨ih.1, by simp only [List.length_cons]; rw [← ih.2]⟩

/-- **C27.** For any definitions at all, the expansion of a text finishes exactly if finitely many rounds of replacement leave no
`$`, and it gives what they leave, with one warning for each `$` without a known name. -/
theorem expand_rounds (defs : Defs) (s d : Text) (w : Nat) :
    (∃ k ws, expandVars defs k s = some (d, ws) ∧ ws.length = w) ↔ Rounds defs s d w := by
  constructor
  · rintro ⟨k, ws, h, rfl⟩
    induction k generalizing s ws with
    | zero => simp [expandVars] at h
    | succ k ih =>
      rw [expandVars_succ] at h
      split at h
      · rename_i h0
        have hz := pass_zero defs s h0
        rw [hz.1] at h
        simp only [Option.some.injEq, Prod.mk.injEq] at h
        obtain ⟨rfl, rfl⟩ := h
        exact .done s hz.2
      · rename_i h0
        cases he : expandVars defs k (pass defs s).1 with
        | none => rw [he] at h; simp at h
        | some x =>
          rw [he] at h
          simp only [Option.map_some, Option.some.injEq, Prod.mk.injEq] at h
          obtain ⟨rfl, rfl⟩ := h
          rw [List.length_append]
          refine .round s _ _ _ _ ?_ (pass_once defs s) (ih _ _ he)
          exact Decidable.byContradiction (fun hn => h0 (by rw [pass_none defs s hn]))
  · intro h
    induction h with
    | done s hs => exact ⟨1, [], expand_plain defs s hs 0, rfl⟩
    | round s t d w w' hs ho _ ih =>
      obtain ⟨k, ws, h1, h2⟩ := ih
      obtain ⟨rfl, rfl⟩ := ho.is_pass
      refine ⟨k + 1, (pass defs s).2.2 ++ ws, ?_, by simp [h2]⟩
      rw [expandVars_succ, if_neg, h1]
      · rfl
      · intro h0
        exact (pass_zero defs s h0).2 hs

/-- One variable whose value ends in an unfinished reference. -/
def openDefs : Defs := [("a".toList, "$b".toList), ("bc".toList, "7".toList)]

/-- **C27**, violated for values that end in an unfinished reference: with `#define $a $b` and `#define $bc 7`, the text `$ac` is the
variable `$a` and the letter `c`, and `$b` is not defined; but the letter is taken for the end of the name, and the text becomes `7`. -/
theorem expand_local_violated : Subst openDefs 1 "$ac".toList "c".toList 1 ∧ expandVars openDefs 3 "$ac".toList = some ("7".toList, []) := by
  refine ⟨?_, by decide +kernel⟩
  have hb : Subst openDefs 0 "$b".toList [] 1 := by
    refine .undefined 0 "b".toList [] [] 0 (by decide) (by simp) ?_ (.nil 0)
    intro p q e hp _
    rcases p with _ | ⟨c, _ | ⟨c', p⟩⟩
    · exact absurd rfl hp
    · have : c = 'b' := by simpa using (congrArg List.head? e).symm
      subst this
      decide +kernel
    · have := congrArg List.length e
      simp at this
  refine .defined 0 "a".toList "$b".toList "c".toList [] "c".toList 1 0 (by simp) (by decide) (by decide +kernel) ?_ hb (.char 1 'c' [] [] 0 (by decide) (.nil 1))
  intro p q e hp hq
  rcases p with _ | ⟨c, _ | ⟨c', p⟩⟩
  · exact absurd rfl hp
  · have : q = [] := by
      have := congrArg List.length e
      cases q with
      | nil => rfl
      | cons a q => simp at this
    exact absurd (hq this) (by simp)
  · have := congrArg List.length e
    simp at this

example : Rounds openDefs "$ac".toList "7".toList 0 :=
  (expand_rounds _ _ _ _).1 ⟨3, [], by decide +kernel, rfl⟩

end Verif.Parser
