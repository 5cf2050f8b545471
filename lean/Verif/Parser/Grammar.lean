import Verif.Parser.Props

/-! C26: the written form of a document. -/
namespace Verif.Parser

/-! ### The specification -/

/-- An element of a document. -/
inductive Item
  | header (name : Text)
  | opcode (name value : Text)
deriving DecidableEq, Repr

/-- `Gap s rest`: the characters `s` before `rest` are blanks and comments. A line comment may be ended by the end of the text. -/
inductive Gap : Text → Text → Prop
  | nil (rest : Text) : Gap [] rest
  | blank (c : Char) (s rest : Text) : c ∈ [' ', '\t', '\r', '\n'] → Gap s rest → Gap (c :: s) rest
  | line (t : Text) (e : Char) (s rest : Text) : '\r' ∉ t → '\n' ∉ t → e ∈ ['\r', '\n'] → Gap s rest → Gap ('/' :: '/' :: t ++ e :: s) rest
  | last (t : Text) : '\r' ∉ t → '\n' ∉ t → Gap ('/' :: '/' :: t) []
  | block (t s rest : Text) : (¬ ∃ a b, t = a ++ '*' :: '/' :: b) → Gap s rest → Gap ('/' :: '*' :: t ++ '*' :: '/' :: s) rest

/-- A text in which a line does not end and no comment begins, even with the first character of `rest` after it. -/
def OneLine (v rest : Text) : Prop :=
  '\r' ∉ v ∧ '\n' ∉ v ∧ (∀ a d b, v ++ rest.take 1 = a ++ '/' :: d :: b → d ≠ '/' ∧ d ≠ '*')

/-- The text begins with a line end or a comment, or is empty. -/
def LineEnds (rest : Text) : Prop :=
  rest = [] ∨ ∃ c t, rest = c :: t ∧ (c = '\r' ∨ c = '\n' ∨ (c = '/' ∧ (t.head? = some '/' ∨ t.head? = some '*')))

/-- The text begins with an opcode's name and its equal sign. -/
def OpcodeNext (rest : Text) : Prop :=
  ∃ c w t, rest = c :: w ++ '=' :: t ∧ isIdentChar c = true ∧ ∀ d ∈ w, isIdentChar d = true ∨ d = '$'

/-- The text begins with `#define` or `#include`. -/
def DirectiveNext (rest : Text) : Prop :=
  ∃ w t, rest = '#' :: w ++ t ∧ (w = "define".toList ∨ w = "include".toList) ∧ ∀ c u, t = c :: u → isIdentChar c = false

/-- A value may end before this text. -/
def ValueEnds (rest : Text) : Prop :=
  LineEnds rest ∨ rest.head? = some '<' ∨
    ∃ sp t, rest = sp ++ t ∧ sp ≠ [] ∧ (∀ c ∈ sp, c = ' ' ∨ c = '\t') ∧
      (LineEnds t ∨ t.head? = some '<' ∨ OpcodeNext t ∨ DirectiveNext t)

/-- A text that can be the value of an opcode: no `<`, no space at its end, and after its spaces neither something that looks like another opcode
nor a directive. -/
def ValueText (v : Text) : Prop :=
  '<' ∉ v ∧ ∀ a c b, v = a ++ c :: b → c = ' ' ∨ c = '\t' → b ≠ [] ∧ ¬ OpcodeNext b ∧ ¬ DirectiveNext b

/-- `Written E depth (defs, paths) text (defs', paths') items`: read with the definitions `defs`, the text says `items`, and leaves the
definitions `defs'`. `paths` are the files included so far, `depth` is the number of files being read. -/
inductive Written (E : Env) : Nat → Defs × List Text → Text → Defs × List Text → List Item → Prop
  | done (n : Nat) (st : Defs × List Text) (gap : Text) : Gap gap [] → Written E n st gap st []
  | header (n : Nat) (st st' : Defs × List Text) (gap name rest : Text) (items : List Item) :
      Gap gap ('<' :: name ++ '>' :: rest) → name ≠ [] → name.all isIdentChar = true →
      Written E n st rest st' items → Written E n st (gap ++ '<' :: name ++ '>' :: rest) st' (.header name :: items)
  | opcode (n : Nat) (st st' : Defs × List Text) (gap raw value rest name v : Text) (items : List Item) :
      Gap gap (raw ++ '=' :: value ++ rest) → raw ≠ [] → (∀ c ∈ raw, isIdentChar c = true ∨ c = '$') →
      E.expand st.1 raw = some (name, []) → name ≠ [] → name.all isIdentChar = true → name ≠ "base64data".toList →
      ValueText value → OneLine value rest → ValueEnds rest → E.expand st.1 value = some (v, []) →
      Written E n st rest st' items → Written E n st (gap ++ raw ++ '=' :: value ++ rest) st' (.opcode name v :: items)
  | data (n : Nat) (st st' : Defs × List Text) (gap raw value rest : Text) (items : List Item) :
      Gap gap (raw ++ '=' :: value ++ rest) → raw ≠ [] → (∀ c ∈ raw, isIdentChar c = true ∨ c = '$') →
      E.expand st.1 raw = some ("base64data".toList, []) → '<' ∉ value → '#' ∉ value → (rest = [] ∨ rest.head? = some '<' ∨ rest.head? = some '#') →
      Written E n st rest st' items →
      Written E n st (gap ++ raw ++ '=' :: value ++ rest) st' (.opcode "base64data".toList value :: items)
  | define (n : Nat) (defs : Defs) (paths : List Text) (st' : Defs × List Text) (gap sp1 id sp2 value rest : Text) (items : List Item) :
      Gap gap ("#define".toList ++ sp1 ++ '$' :: id ++ sp2 ++ value ++ rest) → (∀ c ∈ sp1, c = ' ' ∨ c = '\t') → (∀ c ∈ sp2, c = ' ' ∨ c = '\t') →
      id ≠ [] → id.all isIdentChar = true → (∀ c t, sp2 ++ value ++ rest = c :: t → isIdentChar c = false) →
      ' ' ∉ value → '\t' ∉ value → OneLine value rest → (LineEnds rest ∨ value ≠ [] ∧ (rest.head? = some ' ' ∨ rest.head? = some '\t')) →
      Written E n ((id, value) :: defs, paths) rest st' items →
      Written E n (defs, paths) (gap ++ "#define".toList ++ sp1 ++ '$' :: id ++ sp2 ++ value ++ rest) st' items
  | skipped (n : Nat) (defs : Defs) (paths : List Text) (st' : Defs × List Text) (gap sp path p rest : Text) (items : List Item) :
      Gap gap ("#include".toList ++ sp ++ '"' :: path ++ '"' :: rest) → (∀ c ∈ sp, c = ' ' ∨ c = '\t') →
      '"' ∉ path → '\r' ∉ path → '\n' ∉ path → E.expand defs path = some (p, []) →
      E.guard = true → E.resolve (slashes p) ∈ paths →
      Written E n (defs, paths) rest st' items →
      Written E n (defs, paths) (gap ++ "#include".toList ++ sp ++ '"' :: path ++ '"' :: rest) st' items
  | included (n : Nat) (defs : Defs) (paths : List Text) (st1 st' : Defs × List Text) (gap sp path p file rest : Text) (inner items : List Item) :
      Gap gap ("#include".toList ++ sp ++ '"' :: path ++ '"' :: rest) → (∀ c ∈ sp, c = ' ' ∨ c = '\t') →
      '"' ∉ path → '\r' ∉ path → '\n' ∉ path → E.expand defs path = some (p, []) →
      ¬ (E.guard = true ∧ E.resolve (slashes p) ∈ paths) → n ≠ E.maxDepth → E.files (E.resolve (slashes p)) = some file →
      Written E (n + 1) (defs, E.resolve (slashes p) :: paths) file st1 inner →
      Written E n st1 rest st' items →
      Written E n (defs, paths) (gap ++ "#include".toList ++ sp ++ '"' :: path ++ '"' :: rest) st' (inner ++ items)

/-- The element that an event reports. -/
def itemOf : Event → Option Item
  | .header _ _ name => some (.header name)
  | .opcode _ _ _ _ name value => some (.opcode name value)
  | _ => none

/-- The block that an event reports. -/
def blockOf : Event → Option (Text × List (Text × Text))
  | .block h os => some (h, os)
  | _ => none

/-- An error or a warning. -/
def isProblem : Event → Bool
  | .error .. => true
  | .warning .. => true
  | _ => false

/-- The blocks of a document: every header with the opcodes that follow it, up to the next header. -/
def sections : List Item → List (Text × List (Text × Text))
  | [] => []
  | .header n :: rest =>
    (n, (rest.takeWhile (fun i => match i with | .opcode _ _ => true | .header _ => false)).filterMap
      (fun i => match i with | .opcode a b => some (a, b) | .header _ => none)) :: sections rest
  | .opcode _ _ :: rest => sections rest

/-! ### The reader on a text without bytes that look like the end -/

/-- The reader has exactly this text left. -/
def At (r : Reader) (t : Text) : Prop := Plain r ∧ r.left = t

theorem At.step {r r1 : Reader} {s t : Text} (h : At r (s ++ t)) (k : Adv r s r1) : At r1 t :=
  ⟨k.plain h.1, List.append_cancel_left (k.left.symm.trans h.2)⟩

theorem get_at {r : Reader} {c : Char} {t : Text} (h : At r (c :: t)) : ∃ r1, getChar r = (some c, r1) ∧ At r1 t := by
  have h1 := getChar_plain h.1
  rw [h.2] at h1
  have h2 := getChar_adv r
  rcases hg : getChar r with ⟨o, r1⟩
  rw [hg] at h1 h2
  simp only [List.head?_cons] at h1
  subst h1
  exact ⟨r1, rfl, At.step (s := [c]) h h2⟩

theorem get_end {r : Reader} (h : At r []) : ∃ r1, getChar r = (none, r1) ∧ At r1 [] := by
  have h1 := getChar_plain h.1
  rw [h.2] at h1
  have h2 := getChar_adv r
  rcases hg : getChar r with ⟨o, r1⟩
  rw [hg] at h1 h2
  simp only [List.head?_nil] at h1
  subst h1
  exact ⟨r1, rfl, At.step (s := []) h h2⟩

theorem peek_at {r : Reader} {t : Text} (h : At r t) : ∃ r1, peekChar r = (t.head?, r1) ∧ At r1 t := by
  have h1 := peek_plain h.1
  rw [h.2] at h1
  have h2 := peekChar_adv r
  rcases hg : peekChar r with ⟨o, r1⟩
  rw [hg] at h1 h2
  simp only at h1
  subst h1
  exact ⟨r1, rfl, At.step (s := []) h h2⟩

theorem putBack_at {r : Reader} {t : Text} (h : At r t) (s : Text) : At (putBackChars r s) (s ++ t) := by
  have hf := removes_fields s { r with accum := s ++ r.accum }
  have h1 := h.1
  have h2 := h.2
  unfold At Plain at *
  unfold putBackChars
  rw [hf.2.1, hf.2.2.2]
  refine ⟨h1, ?_⟩
  simp only [Reader.left, Reader.rest, hf.2.1, hf.2.2.1, hf.2.2.2] at h2 ⊢
  rw [List.append_assoc, h2]

theorem takeWhile_exact {p : Char → Bool} {a b : Text} (ha : ∀ c ∈ a, p c = true) (hb : ∀ c t, b = c :: t → p c = false) :
    (a ++ b).takeWhile p = a ∧ (a ++ b).dropWhile p = b := by
  induction a with
  | nil =>
    cases b with
    | nil => simp
    | cons c t => have := hb c t rfl; simp [this]
  | cons c a ih =>
    have h1 := ha c (by simp)
    have h2 := ih (fun d hd => ha d (by simp [hd]))
    simp [h1, h2.1, h2.2]

theorem extract_at {p : Char → Bool} {r : Reader} {a b : Text} (h : At r (a ++ b)) (ha : ∀ c ∈ a, p c = true) (hb : ∀ c t, b = c :: t → p c = false) :
    ∃ r1, extractWhile p r = (a, r1) ∧ At r1 b := by
  have h1 := extract_plain p h.1
  rw [h.2, (takeWhile_exact ha hb).1] at h1
  have h2 := extract_adv p r
  rcases hg : extractWhile p r with ⟨o, r1⟩
  rw [hg] at h1 h2
  simp only at h1
  subst h1
  exact ⟨r1, rfl, h.step h2⟩

theorem skip_at {p : Char → Bool} {r : Reader} {a b : Text} (h : At r (a ++ b)) (ha : ∀ c ∈ a, p c = true) (hb : ∀ c t, b = c :: t → p c = false) :
    (skipChars p r).1 = a.length ∧ At (skipChars p r).2 b := by
  have h1 := skip_plain p h.1
  rw [h.2, (takeWhile_exact ha hb).1, (takeWhile_exact ha hb).2] at h1
  obtain ⟨s, h2, _⟩ := skip_adv p r
  exact ⟨h1.2, h2.plain h.1, h1.1⟩

theorem exact_at {c : Char} {r : Reader} {t : Text} (h : At r (c :: t)) : ∃ r1, extractExactChar c r = (true, r1) ∧ At r1 t := by
  have h1 := exact_plain c h.1
  rw [h.2] at h1
  have h2 := exact_adv c r
  rcases hg : extractExactChar c r with ⟨o, r1⟩
  rw [hg] at h1 h2
  simp at h1
  subst h1
  exact ⟨r1, rfl, At.step (s := [c]) h h2⟩

theorem eol_at {r : Reader} {t : Text} (h : At r t) : ∃ r1 u, extractToEol r = (lineOf t, r1) ∧ t = lineOf t ++ u ∧ At r1 u := by
  have h1 := eol_plain h.1
  rw [h.2] at h1
  have h2 := eol_adv r
  rcases hg : extractToEol r with ⟨o, r1⟩
  rw [hg] at h1 h2
  simp only at h1 h2
  subst h1
  exact ⟨r1, r1.left, rfl, h.2 ▸ h2.left, h2.plain h.1, rfl⟩

/-! ### Blanks and comments -/

theorem lineComment_at (n : Nat) : ∀ {r : Reader} {t u : Text}, At r (t ++ u) → '\r' ∉ t → '\n' ∉ t → (t ++ u).length < n →
    (∀ e s, u = e :: s → e ∈ ['\r', '\n'] → At (lineCommentLoop n r) s) ∧ (u = [] → At (lineCommentLoop n r) []) := by
  induction n with
  | zero => intro r t u _ _ _ h; omega
  | succ n ih =>
    intro r t u h h1 h2 hn
    unfold lineCommentLoop
    cases t with
    | nil =>
      constructor
      · rintro e s rfl he
        obtain ⟨r1, hg, ha⟩ := get_at h
        rw [hg]
        simp only
        rw [if_pos (by simpa using he)]
        exact ha
      · rintro rfl
        obtain ⟨r1, hg, ha⟩ := get_end h
        rw [hg]
        exact ha
    | cons c t =>
      obtain ⟨r1, hg, ha⟩ := get_at h
      rw [hg]
      simp only
      rw [if_neg (by rintro (rfl | rfl) <;> simp_all)]
      exact ih ha (fun hh => h1 (by simp [hh])) (fun hh => h2 (by simp [hh])) (by simp at hn ⊢; omega)

/-- No star and slash in a text after a character. -/
theorem blockComment_at (n : Nat) : ∀ {r : Reader} {c : Char} {t s : Text}, At r (t ++ '*' :: '/' :: s) → (¬ ∃ a b, c :: t = a ++ '*' :: '/' :: b) →
    (t ++ '*' :: '/' :: s).length < n → ∃ r1, blockCommentLoop n c r = (true, r1) ∧ At r1 s := by
  induction n with
  | zero => intro r c t s _ _ h; omega
  | succ n ih =>
    intro r c t s h hc hn
    unfold blockCommentLoop
    cases t with
    | nil =>
      obtain ⟨r1, hg, ha⟩ := get_at h
      rw [hg]
      simp only
      rw [if_neg (by rintro ⟨_, h⟩; cases h)]
      have hn' : 0 < n := by simp at hn; omega
      obtain ⟨m, rfl⟩ : ∃ m, n = m + 1 := ⟨n - 1, by omega⟩
      unfold blockCommentLoop
      obtain ⟨r2, hg2, ha2⟩ := get_at ha
      rw [hg2]
      simp only
      rw [if_pos ⟨trivial, trivial⟩]
      exact ⟨r2, rfl, ha2⟩
    | cons d t =>
      obtain ⟨r1, hg, ha⟩ := get_at h
      rw [hg]
      simp only
      rw [if_neg (by rintro ⟨rfl, rfl⟩; exact hc ⟨[], t, rfl⟩)]
      refine ih ha ?_ (by simp at hn ⊢; omega)
      rintro ⟨a, b, hab⟩
      exact hc ⟨c :: a, b, by rw [hab]; rfl⟩

theorem commentType_at {r : Reader} {d : Char} {t : Text} (h : At r ('/' :: d :: t)) (hd : d = '/' ∨ d = '*') :
    ∃ r1, getCommentType r = (if d = '/' then .line else .block, r1) ∧ At r1 ('/' :: d :: t) := by
  unfold getCommentType
  obtain ⟨r1, hp, h1⟩ := peek_at h
  rw [hp]
  simp only [List.head?_cons]
  obtain ⟨r2, hg, h2⟩ := get_at h1
  rw [hg]
  simp only
  obtain ⟨r3, hp3, h3⟩ := peek_at h2
  rw [hp3]
  simp only [List.head?_cons]
  have h4 := putBack_at h3 ['/']
  rcases hd with rfl | rfl
  · exact ⟨_, rfl, h4⟩
  · exact ⟨_, rfl, h4⟩

theorem commentType_none {r : Reader} {t : Text} (h : At r t) (hn : ∀ d u, t = '/' :: d :: u → d ≠ '/' ∧ d ≠ '*') :
    ∃ r1, getCommentType r = (.none, r1) ∧ At r1 t := by
  unfold getCommentType
  obtain ⟨r1, hp, h1⟩ := peek_at h
  rw [hp]
  by_cases hs : t.head? = some '/'
  · obtain ⟨u, rfl⟩ : ∃ u, t = '/' :: u := by
      cases t with
      | nil => simp at hs
      | cons c u => simp at hs; exact ⟨u, by rw [hs]⟩
    simp only [List.head?_cons]
    obtain ⟨r2, hg, h2⟩ := get_at h1
    rw [hg]
    simp only
    obtain ⟨r3, hp3, h3⟩ := peek_at h2
    rw [hp3]
    have h4 := putBack_at h3 ['/']
    split
    · rename_i heq
      injection heq with e1 e2
      cases u with
      | nil => simp at e1
      | cons d v => simp at e1; exact absurd e1 (hn d v rfl).1
    · rename_i heq
      injection heq with e1 e2
      cases u with
      | nil => simp at e1
      | cons d v => simp at e1; exact absurd e1 (hn d v rfl).2
    · rename_i heq
      injection heq with e1 e2
      subst e2
      exact ⟨_, rfl, h4⟩
  · split
    · rename_i heq
      injection heq with e1 e2
      exact absurd e1 hs
    · rename_i heq
      injection heq with e1 e2
      subst e2
      exact ⟨_, rfl, h1⟩

/-- The gap after its first blanks. -/
theorem Gap.blanks {s rest : Text} (h : Gap s rest) : ∃ a b, s = a ++ b ∧ (∀ c ∈ a, isBlank c = true) ∧ Gap b rest ∧
    (b = [] ∨ b.head? = some '/') := by
  induction h with
  | nil rest => exact ⟨[], [], rfl, by simp, .nil rest, Or.inl rfl⟩
  | blank c s rest hc _ ih =>
    obtain ⟨a, b, e1, e2, e3, e4⟩ := ih
    refine ⟨c :: a, b, by rw [e1]; rfl, ?_, e3, e4⟩
    intro d hd
    rcases List.mem_cons.mp hd with rfl | hd
    · simp only [List.mem_cons, List.not_mem_nil, or_false] at hc
      rcases hc with rfl | rfl | rfl | rfl <;> rfl
    · exact e2 d hd
  | line t e s rest h1 h2 h3 h4 _ => exact ⟨[], _, rfl, by simp, .line t e s rest h1 h2 h3 h4, Or.inr rfl⟩
  | last t h1 h2 => exact ⟨[], _, rfl, by simp, .last t h1 h2, Or.inr rfl⟩
  | block t s rest h1 h2 _ => exact ⟨[], _, rfl, by simp, .block t s rest h1 h2, Or.inr rfl⟩

/-- A comment that a gap begins with is skipped. -/
theorem Gap.comment {s rest : Text} (h : Gap s rest) (hs : s.head? = some '/') {r : Reader} (hr : At r (s ++ rest)) :
    ∃ r1 s1, skipComment r = (true, [], r1) ∧ At r1 (s1 ++ rest) ∧ Gap s1 rest ∧ s1.length < s.length := by
  unfold skipComment
  cases h with
  | nil => simp at hs
  | blank c s rest hc _ => simp at hs; subst hs; simp at hc
  | line t e s rest h1 h2 h3 h4 =>
    obtain ⟨r1, hg, ha⟩ := commentType_at (r := r) (d := '/') (t := (t ++ e :: s) ++ rest) (by simpa using hr) (Or.inl rfl)
    rw [hg]
    simp only [if_true]
    obtain ⟨r2, hg2, ha2⟩ := get_at ha
    obtain ⟨r3, hg3, ha3⟩ := get_at ha2
    rw [hg2]
    simp only
    rw [hg3]
    have hl : r1.size = ('/' :: '/' :: ((t ++ e :: s) ++ rest)).length := by rw [size_plain ha.1, ha.2]
    have := (lineComment_at (r1.size + 1) (r := r3) (t := t) (u := e :: (s ++ rest)) (by simpa using ha3) h1 h2 (by rw [hl]; simp; omega)).1 e _ rfl h3
    exact ⟨_, s, rfl, this, h4, by simp; omega⟩
  | last t h1 h2 =>
    obtain ⟨r1, hg, ha⟩ := commentType_at (r := r) (d := '/') (t := t) (by simpa using hr) (Or.inl rfl)
    rw [hg]
    simp only [if_true]
    obtain ⟨r2, hg2, ha2⟩ := get_at ha
    obtain ⟨r3, hg3, ha3⟩ := get_at ha2
    rw [hg2]
    simp only
    rw [hg3]
    have hl : r1.size = ('/' :: '/' :: t).length := by rw [size_plain ha.1, ha.2]
    have := (lineComment_at (r1.size + 1) (r := r3) (t := t) (u := []) (by simpa using ha3) h1 h2 (by rw [hl]; simp; omega)).2 rfl
    exact ⟨_, [], rfl, this, .nil _, by simp⟩
  | block t s rest h1 h2 =>
    obtain ⟨r1, hg, ha⟩ := commentType_at (r := r) (d := '*') (t := (t ++ '*' :: '/' :: s) ++ rest) (by simpa using hr) (Or.inr rfl)
    rw [hg]
    simp only [show ¬ ('*' = '/') by decide, if_false]
    obtain ⟨r2, hg2, ha2⟩ := get_at ha
    obtain ⟨r3, hg3, ha3⟩ := get_at ha2
    rw [hg2]
    simp only
    rw [hg3]
    simp only
    have hfin : ∀ (c : Char) (t' : Text) (r4 : Reader), t ++ '*' :: '/' :: s ++ rest = c :: (t' ++ '*' :: '/' :: (s ++ rest)) →
        (¬ ∃ a b, c :: t' = a ++ '*' :: '/' :: b) → At r4 (t' ++ '*' :: '/' :: (s ++ rest)) →
        ∃ r5, blockCommentLoop (r4.size + 1) c r4 = (true, r5) ∧ At r5 (s ++ rest) := by
      intro c t' r4 e1 e2 e3
      exact blockComment_at (r4.size + 1) e3 e2 (by rw [size_plain e3.1, e3.2]; omega)
    cases t with
    | nil =>
      obtain ⟨r4, hg4, ha4⟩ := get_at (c := '*') (t := '/' :: s ++ rest) (by simpa using ha3)
      rw [hg4]
      simp only
      obtain ⟨r5, hg5, ha5⟩ := get_at (c := '/') (t := s ++ rest) (by simpa using ha4)
      unfold blockCommentLoop
      rw [hg5]
      simp only
      rw [if_pos ⟨trivial, trivial⟩]
      exact ⟨r5, s, rfl, ha5, h2, by simp; omega⟩
    | cons c t' =>
      obtain ⟨r4, hg4, ha4⟩ := get_at (c := c) (t := t' ++ '*' :: '/' :: (s ++ rest)) (by simpa using ha3)
      rw [hg4]
      simp only
      obtain ⟨r5, hg5, ha5⟩ := hfin c t' r4 (by simp) h1 ha4
      rw [hg5]
      exact ⟨r5, s, rfl, ha5, h2, by simp; omega⟩

/-- What follows a gap is neither blank nor a comment. -/
def NoGap (t : Text) : Prop := (∀ c u, t = c :: u → isBlank c = false) ∧ ∀ d u, t = '/' :: d :: u → d ≠ '/' ∧ d ≠ '*'

theorem skipBlanksLoop_at {rest : Text} (hr : NoGap rest) (n : Nat) : ∀ {s : Text} {r : Reader}, Gap s rest → At r (s ++ rest) → r.size < n →
    ∃ r1, skipBlanksLoop n r = ([], r1) ∧ At r1 rest := by
  induction n with
  | zero => intro s r _ _ h; omega
  | succ n ih =>
    intro s r hs ha hn
    unfold skipBlanksLoop
    obtain ⟨a, b, e1, e2, e3, e4⟩ := hs.blanks
    subst e1
    have hb : ∀ c t, b ++ rest = c :: t → isBlank c = false := by
      intro c t h
      rcases e4 with rfl | e4
      · exact hr.1 c t h
      · cases b with
        | nil => simp at e4
        | cons d b => simp at e4 h; rw [← h.1, e4]; rfl
    have hsk := skip_at (p := isBlank) (r := r) (a := a) (b := b ++ rest) (by simpa using ha) e2 hb
    have hsz : (skipChars isBlank r).2.size + a.length = r.size := by
      rw [size_plain hsk.2.1, hsk.2.2, size_plain ha.1, ha.2]; simp; omega
    rcases hg : skipChars isBlank r with ⟨_ | k, r1⟩
    · rw [hg] at hsk hsz
      simp only at hsk hsz
      simp only
      rcases e4 with rfl | e4
      · obtain ⟨r2, hc, ha2⟩ := commentType_none (t := rest) hsk.2 hr.2
        unfold skipComment
        rw [hc]
        exact ⟨r2, rfl, ha2⟩
      · obtain ⟨r2, s1, hc, ha2, hs1, hlt⟩ := e3.comment e4 hsk.2
        rw [hc]
        simp only
        have h1 : r2.size < n := by
          have h2 : r1.size = (b ++ rest).length := by rw [size_plain hsk.2.1, hsk.2.2]
          have h3 : r2.size = (s1 ++ rest).length := by rw [size_plain ha2.1, ha2.2]
          simp only [List.length_append] at h2 h3
          omega
        obtain ⟨r3, hg3, ha3⟩ := ih hs1 ha2 h1
        rw [hg3]
        exact ⟨r3, rfl, ha3⟩
    · rw [hg] at hsk hsz
      simp only at hsk hsz
      simp only
      exact ih e3 hsk.2 (by omega)

theorem skipBlanks_at {s rest : Text} {r : Reader} (hr : NoGap rest) (hs : Gap s rest) (ha : At r (s ++ rest)) :
    ∃ r1, skipBlanks r = ([], r1) ∧ At r1 rest := skipBlanksLoop_at hr _ hs ha (by omega)

end Verif.Parser
