import Verif.Parser.Expand

/-! C25: the real expansion of variables, when no definition contains a `$`. -/
namespace Verif.Parser

/-- No definition has a `$` in its value. -/
def DollarFree (defs : Defs) : Prop := ∀ p ∈ defs, '$' ∉ p.2

/-- No `#define` written in a text has a `$` in its value. -/
def NoDollarDefine (text : Text) : Prop :=
  ∀ a s1 id s2 v b, text = a ++ "#define".toList ++ s1 ++ ['$'] ++ id ++ s2 ++ v ++ b → s1.all isSpaceChar = true → id ≠ [] → id.all isIdentChar = true →
    s2.all isSpaceChar = true → (∀ c ∈ v, isSpaceChar c = false ∧ c ≠ '\r' ∧ c ≠ '\n') → '$' ∉ v

theorem lookup_mem {defs : Defs} {m v : Text} (h : defs.lookup m = some v) : (m, v) ∈ defs := by
  induction defs with
  | nil => simp at h
  | cons p defs ih =>
    rw [List.lookup_cons] at h
    cases hmp : m == p.1 with
    | true =>
      rw [hmp] at h
      have : m = p.1 := by simpa using hmp
      simp only [Option.some.injEq] at h
      rw [this, ← h]; exact List.mem_cons_self
    | false => rw [hmp] at h; exact List.mem_cons_of_mem _ (ih h)

/-- Without `$` in the values, two passes are enough. -/
theorem expand_dollarFree {defs : Defs} (h : DollarFree defs) (k : Nat) (s : Text) : ∃ d ws, expandVars defs (k + 2) s = some (d, ws) ∧ Subst defs 1 s d ws.length := by
  have hcl : AllClosed defs := by
    intro name v hv a q e _
    exact absurd (by rw [e]; simp) (h _ (lookup_mem hv))
  have key : ∀ s, ∃ d w, Subst defs 1 s d w ∧ '$' ∉ (pass defs s).1 := by
    intro s
    induction s using text_induction defs with
    | hnil => exact ⟨[], 0, .nil 1, by simp [pass_nil]⟩
    | hchar c t hc ih =>
      obtain ⟨d, w, h1, h2⟩ := ih
      rw [pass_char defs hc]
      exact ⟨_, _, .char 1 c t d w hc h1, by simp [h2, Ne.symm hc]⟩
    | hdef name v rest h1 h2 h3 h4 ih =>
      obtain ⟨d, w, k1, k2⟩ := ih
      have hv := h _ (lookup_mem h3)
      rw [pass_defined defs rest h1 h2 h3 h4]
      exact ⟨_, _, .defined 0 name v rest v d 0 w h1 h2 h3 h4 (Subst.same 0 hv) k1, by simp only [List.mem_append]; rintro (h | h); exact hv h; exact k2 h⟩
    | hund name rest h1 h2 h3 ih =>
      obtain ⟨d, w, k1, k2⟩ := ih
      obtain ⟨m, hp⟩ := pass_undefined defs rest h1 h2 h3
      rw [hp]
      exact ⟨_, _, .undefined 1 name rest d w h1 h2 h3 k1, k2⟩
  obtain ⟨d, w, h1, h2⟩ := key s
  have hk : ∃ x, expandVars defs (k + 2) s = some x := by
    rw [expandVars_succ]
    split
    · exact ⟨_, rfl⟩
    · rw [expandVars_succ, pass_none defs _ h2]; exact ⟨_, rfl⟩
  obtain ⟨ws, e1, e2⟩ := expand_complete hcl 1 h1 (k + 3) (by omega)
  obtain ⟨x, hx⟩ := hk
  have : expandVars defs (k + 3) s = some x := by
    rw [expandVars_succ] at hx ⊢
    split
    · rename_i h0; rw [if_pos h0] at hx; exact hx
    · rename_i h0
      rw [if_neg h0] at hx
      rw [expandVars_succ, pass_none defs _ h2] at hx ⊢
      exact hx
  rw [this] at e1
  rw [hx, e1]
  exact ⟨d, ws, rfl, by rw [e2]; exact h1⟩

/-! ### Definitions come from the texts -/

theorem takeWhile_all (p : Char → Bool) (l : Text) : ∀ c ∈ l.takeWhile p, p c = true := by
  induction l with
  | nil => simp
  | cons a l ih =>
    intro c hc
    rw [List.takeWhile_cons] at hc
    split at hc
    · rename_i ha
      rcases List.mem_cons.mp hc with rfl | hc
      · exact ha
      · exact ih c hc
    · simp at hc


/-- The definitions after a turn: those before, or one more, written in front of the reader. -/
def Adds (r : Reader) (defs defs' : Defs) : Prop :=
  defs' = defs ∨ ∃ a s1 id s2 v r', Adv r (a ++ "#define".toList ++ s1 ++ ['$'] ++ id ++ s2 ++ v) r' ∧ s1.all isSpaceChar = true ∧ id ≠ [] ∧
    id.all isIdentChar = true ∧ s2.all isSpaceChar = true ∧ (∀ c ∈ v, isSpaceChar c = false ∧ c ≠ '\r' ∧ c ≠ '\n') ∧ defs' = (id, v) :: defs

theorem Adds.before {r r1 : Reader} {t : Text} {defs defs' : Defs} (h : Adv r t r1) (k : Adds r1 defs defs') : Adds r defs defs' := by
  rcases k with k | ⟨a, s1, id, s2, v, r', k, k'⟩
  · exact Or.inl k
  · refine Or.inr ⟨t ++ a, s1, id, s2, v, r', ?_, k'⟩
    have := h.trans k
    simpa using this

theorem include_defs {E : Env} {s s' : PState} {l : Loc} {r : Reader} {rest : List Reader} (h : processInclude E s l r rest = some s') : s'.defs = s.defs := by
  unfold processInclude at h
  split at h
  · rw [← Option.some.inj h]
  · simp only at h
    split at h
    · rw [← Option.some.inj h]
    · split at h
      · simp at h
      · rw [← Option.some.inj h]
        unfold includeFile
        split
        · rfl
        · split
          · rfl
          · split <;> rfl

theorem value_defs {E : Env} {s s' : PState} {a b c : Loc} {nm : Text} {r : Reader} {rest : List Reader} (h : processValue E s a b c nm r rest = some s') :
    s'.defs = s.defs := by
  unfold processValue at h
  rcases hl : extractToEol r with ⟨line, r1⟩
  rw [hl] at h
  simp only at h
  cases hx : E.expand s.defs (splitValue (line.length + 1) line).1 with
  | none => rw [hx] at h; simp at h
  | some p => rw [hx] at h; rw [← Option.some.inj h]

theorem opcode_defs {E : Env} {s s' : PState} {r : Reader} {rest : List Reader} (h : processOpcode E s r rest = some s') : s'.defs = s.defs := by
  unfold processOpcode at h
  split at h
  · rw [← Option.some.inj h]
  · split at h
    · split at h
      · simp at h
      · split at h
        · split at h
          · rw [← Option.some.inj h]; rfl
          · rw [value_defs h]
        · rw [← Option.some.inj h]
    · rw [← Option.some.inj h]

theorem header_defs (s : PState) (r : Reader) (rest : List Reader) : (processHeader s r rest).defs = s.defs := by
  have hf : ∀ s : PState, (flush s).defs = s.defs := by intro s; unfold flush; split <;> rfl
  unfold processHeader
  split
  · simp only
    split
    · split
      · exact hf _
      · rfl
    · rfl
  · rfl

theorem define_adds {s : PState} {l : Loc} {r r1 : Reader} (h : Adv r "#define".toList r1) (rest : List Reader) :
    Adds r s.defs (processDefine s l r1 rest).defs := by
  unfold processDefine
  obtain ⟨a, ha, ha2, _⟩ := skip_adv isSpaceChar r1
  have hx := exact_adv '$' (skipChars isSpaceChar r1).2
  rcases hg : extractExactChar '$' (skipChars isSpaceChar r1).2 with ⟨_ | _, r2⟩
  · exact Or.inl rfl
  · rw [hg] at hx
    dsimp only at hx
    simp only
    have he := extract_adv isIdentChar r2
    have hea := extract_all isIdentChar r2
    rcases hg2 : extractWhile isIdentChar r2 with ⟨_ | ⟨i, id⟩, r3⟩
    · exact Or.inl rfl
    · rw [hg2] at he hea
      dsimp only at he hea
      simp only
      obtain ⟨b, hb, hb2, _⟩ := skip_adv isSpaceChar r3
      have hl := eol_adv (skipChars isSpaceChar r3).2
      have hla := eol_all (skipChars isSpaceChar r3).2
      rcases hg3 : extractToEol (skipChars isSpaceChar r3).2 with ⟨value, r4⟩
      rw [hg3] at hl hla
      dsimp only at hl hla
      have hw := List.takeWhile_append_dropWhile (p := fun c => !isSpaceChar c) (l := value)
      rw [← hw] at hl
      have h4 := Adv.putBack hl
      refine Or.inr ⟨[], a, i :: id, b, value.takeWhile (fun c => !isSpaceChar c),
        putBackChars r4 (value.dropWhile (fun c => !isSpaceChar c)), ?_, List.all_eq_true.mpr ha2, by simp, List.all_eq_true.mpr hea,
        List.all_eq_true.mpr hb2, ?_, rfl⟩
      · have := h.trans (ha.trans (hx.trans (he.trans (hb.trans h4))))
        simpa using this
      · intro c hc
        have h1 := takeWhile_all _ _ c hc
        have h2 := hla c ((List.takeWhile_sublist _).subset hc)
        exact ⟨by simpa using h1, h2⟩

theorem turn_adds {E : Env} {s s' : PState} {r : Reader} {rest : List Reader} (h : turn E s r rest = some s') : Adds r s.defs s'.defs := by
  unfold turn at h
  obtain ⟨t, h1, _⟩ := skipBlanks_spec E r
  rcases hg : skipBlanks r with ⟨ev, r1⟩
  rw [hg] at h h1
  simp only at h h1
  have hpk := peekChar_adv r1
  rcases hp : peekChar r1 with ⟨_ | c, r2⟩
  · rw [hp] at h
    rw [← Option.some.inj h]; exact Or.inl rfl
  · have hget := peek_get (r := r1) (c := c) (by rw [hp])
    rw [hp] at h hpk hget
    simp only at h hpk hget
    split at h
    · rename_i hc
      subst hc
      unfold processDirective at h
      have hga := getChar_adv r2
      rcases hg2 : getChar r2 with ⟨o, r3⟩
      rw [hg2] at h hget hga
      simp only at hget
      subst hget
      simp only at h hga
      have hex := extract_adv isIdentChar r3
      rcases hg3 : extractWhile isIdentChar r3 with ⟨dir, r4⟩
      rw [hg3] at h hex
      simp only at h hex
      split at h
      · rename_i hdir
        subst hdir
        rw [← Option.some.inj h]
        exact (define_adds (hga.trans hex) rest).before (h1.trans_nil hpk)
      · split at h
        · exact Or.inl (by rw [include_defs h])
        · rw [← Option.some.inj h]; exact Or.inl rfl
    · split at h
      · rw [← Option.some.inj h]; exact Or.inl (header_defs _ _ _)
      · exact Or.inl (by rw [opcode_defs h])

/-- **C25.** If no `#define` of the text, nor of any file, nor any external definition, has a `$` in its value, then the parser
finishes, whatever else the text and the files are: two passes are enough for every expansion. -/
theorem parse_finishes_partial (files : Text → Option Text) (resolve : Text → Text) (maxDepth : Nat) (guard : Bool) (k : Nat) (external : Defs)
    (path : Text) (signed : Bool) (text : Text) (hx : DollarFree external) (hm : NoDollarDefine (mainText signed text))
    (hf : ∀ p t, files p = some t → NoDollarDefine t) :
    ∃ s, Parses (envWith files resolve maxDepth guard (k + 2)) external path signed text s := by
  refine parses_of_inv (I := fun s => DollarFree s.defs ∧ Good (envWith files resolve maxDepth guard (k + 2)) path (mainText signed text) s) ?_ ?_ external path signed text ?_
  · rintro s s' ⟨h1, h2⟩ hs
    refine ⟨?_, step_good h2 hs⟩
    unfold step at hs
    split at hs
    · rw [← Option.some.inj hs]; exact h1
    · rename_i r rest hi
      obtain ⟨t, d, k1, k2, k3⟩ := h2.1 r (by rw [hi]; simp)
      have ht : NoDollarDefine t := by
        rcases k1 with ⟨_, rfl⟩ | k1
        · exact hm
        · exact hf _ _ k1
      rcases turn_adds hs with h | ⟨a, s1, id, s2, v, r', m1, m2, m3, m4, m5, m6, m7⟩
      · rw [h]; exact h1
      · rw [m7]
        intro p hp
        rcases List.mem_cons.mp hp with rfl | hp
        · exact ht (d ++ a) s1 id s2 v r'.left (by rw [← k3, m1.left]; simp) m2 m3 m4 m5 m6
        · exact h1 p hp
  · rintro s ⟨h1, _⟩ t
    obtain ⟨d, ws, e, _⟩ := expand_dollarFree h1 k t
    show expandVars s.defs (k + 2) t ≠ none
    rw [e]; exact Option.some_ne_none _
  · refine ⟨?_, start_good _ _ _ _ _⟩
    unfold start
    split <;> exact hx

/-- A variable defined as itself, and used. -/
def hangText : Text := "#define $a $a\n$a=1".toList

/-- **C25.** The parser does not finish on every text: after `#define $a $a`, the opcode name `$a` is expanded for ever. -/
theorem parse_terminates_violated (files : Text → Option Text) (resolve : Text → Text) (guard : Bool) (k : Nat) (s : PState) :
    ¬ Parses (envWith files resolve 32 guard k) [] "m".toList false hangText s := by
  generalize hE : envWith files resolve 32 guard k = E
  let q0 : Reader := newReader "m".toList false hangText
  let q1 : Reader := ⟨"m".toList, false, "#".toList, hangText.drop 1, 0, 0, [], false⟩
  let q2 : Reader := ⟨"m".toList, false, [], hangText.drop 1, 0, 1, [], false⟩
  let q3 : Reader := ⟨"m".toList, false, " ".toList, hangText.drop 8, 0, 7, [], false⟩
  let r0 : Reader := ⟨"m".toList, false, "\n".toList, "$a=1".toList, 0, 13, [], false⟩
  let r1 : Reader := ⟨"m".toList, false, "$".toList, "a=1".toList, 1, 0, [13], false⟩
  let r2 : Reader := ⟨"m".toList, false, "=".toList, "1".toList, 1, 2, [13], false⟩
  let s0 : PState := ⟨[], [q1], ["m".toList], none, [], []⟩
  let s1 : PState := ⟨[("a".toList, "$a".toList)], [r0], ["m".toList], none, [], []⟩
  have h1 : step E (start E [] "m".toList false hangText) = some s1 := by
    have b1 : skipBlanks q0 = ([], q1) := by decide +kernel
    have b2 : peekChar q1 = (some '#', q1) := by decide +kernel
    have b3 : getChar q1 = (some '#', q2) := by decide +kernel
    have b4 : extractWhile isIdentChar q2 = ("define".toList, q3) := by decide +kernel
    have b5 : processDefine s0 q1.loc q3 [] = s1 := by decide +kernel
    have hst : start E [] "m".toList false hangText = ⟨[], [q0], ["m".toList], none, [], []⟩ := by rw [← hE]; rfl
    rw [hst]
    show turn E _ q0 [] = some s1
    unfold turn
    rw [b1]
    simp only
    rw [b2]
    simp only
    rw [if_pos trivial]
    unfold processDirective
    rw [b3]
    simp only
    rw [b4]
    simp only
    rw [if_pos trivial, ← b5]
    rfl
  have h2 : step E s1 = none := by
    have a1 : skipBlanks r0 = ([], r1) := by decide +kernel
    have a2 : peekChar r1 = (some '$', r1) := by decide +kernel
    have a3 : extractWhile (fun c => isIdentChar c || c == '$') r1 = (['$', 'a'], r2) := by decide +kernel
    have a4 : peekChar r2 = (some '=', r2) := by decide +kernel
    have a5 : E.expand [("a".toList, "$a".toList)] "$a".toList = none := by rw [← hE]; exact expand_terminates_violated k
    show turn E s1 r0 [] = none
    unfold turn
    rw [a1]
    simp only
    rw [a2]
    simp only
    rw [if_neg (by decide), if_neg (by decide)]
    unfold processOpcode
    rw [a3]
    simp only
    rw [a4]
    simp only
    have a5' : E.expand s1.defs ['$', 'a'] = none := a5
    split
    · rfl
    · rename_i hx
      exact absurd (hx.symm.trans a5') (by simp)
  rintro ⟨n, s', hr, hi, _⟩
  cases n with
  | zero =>
    simp only [run, Option.some.injEq] at hr
    rw [← hr] at hi
    rw [← hE] at hi
    simp [start, envWith] at hi
  | succ n =>
    simp only [run, h1] at hr
    cases n with
    | zero =>
      simp only [run, Option.some.injEq] at hr
      rw [← hr] at hi
      simp [s1] at hi
    | succ n =>
      simp only [run, h2] at hr
      simp at hr

end Verif.Parser
