import Verif.Parser.Values
import Verif.Parser.Expand

/-! C26: parsing returns the document that was written. -/
namespace Verif.Parser

/-- What was reported so far, without the positions. -/
structure Abs where
  header : Option Text
  opcodes : List (Text × Text)
  items : List Item
  blocks : List (Text × List (Text × Text))
  problem : Bool
deriving DecidableEq

def abs (s : PState) : Abs := ⟨s.header, s.opcodes, s.events.filterMap itemOf, s.events.filterMap blockOf, s.events.any isProblem⟩

def Abs.pending (a : Abs) : List (Text × List (Text × Text)) :=
  match a.header with
  | some h => [(h, a.opcodes)]
  | none => []

def emit (a : Abs) : Item → Abs
  | .header n => ⟨some n, [], a.items ++ [.header n], a.blocks ++ a.pending, a.problem⟩
  | .opcode n v => ⟨a.header, a.opcodes ++ [(n, v)], a.items ++ [.opcode n v], a.blocks, a.problem || a.header.isNone⟩

/-- Some turns lead from one state to another. -/
def Reach (E : Env) (s s' : PState) : Prop := ∃ n, run E n s = some s'

theorem Reach.trans {E : Env} {a b c : PState} (h : Reach E a b) (k : Reach E b c) : Reach E a c := by
  obtain ⟨n, hn⟩ := h
  obtain ⟨m, hm⟩ := k
  exact ⟨n + m, by rw [run_add E n m a b hn]; exact hm⟩

theorem Reach.one {E : Env} {s s' : PState} {r : Reader} {rest : List Reader} (hi : s.included = r :: rest) (h : turn E s r rest = some s') : Reach E s s' :=
  ⟨1, by rw [run_one]; unfold step; rw [hi]; exact h⟩

theorem turn_end {E : Env} {s : PState} {r : Reader} {rest : List Reader} {gap : Text} (hg : Gap gap []) (ha : At r gap) :
    turn E s r rest = some { s with included := rest } := by
  obtain ⟨r1, h1, a1⟩ := skipBlanks_at (r := r) (rest := []) ⟨by simp, by simp⟩ hg (by simpa using ha)
  obtain ⟨r2, h2, a2⟩ := peek_at a1
  unfold turn
  rw [h1]
  simp only
  rw [h2]
  simp

/-- The gap is skipped, and the next character is looked at. -/
theorem turn_begin {s rest : Text} {r : Reader} {c : Char} {t : Text} (hs : Gap s rest) (ha : At r (s ++ rest)) (hr : rest = c :: t)
    (hb : isBlank c = false) (hc : c ≠ '/') : ∃ r1 r2, skipBlanks r = ([], r1) ∧ peekChar r1 = (some c, r2) ∧ At r2 (c :: t) := by
  subst hr
  obtain ⟨r1, h1, a1⟩ := skipBlanks_at (r := r) (rest := c :: t)
    ⟨by intro d u h; injection h with h _; rw [← h]; exact hb, by intro d u h; injection h with h _; exact absurd h hc⟩ hs ha
  obtain ⟨r2, h2, a2⟩ := peek_at a1
  exact ⟨r1, r2, h1, h2, a2⟩

theorem turn_header {E : Env} {s : PState} {r : Reader} {rest : List Reader} {gap name t : Text} (hg : Gap gap ('<' :: name ++ '>' :: t))
    (hn : name ≠ []) (hi : name.all isIdentChar = true) (ha : At r (gap ++ '<' :: name ++ '>' :: t)) :
    ∃ s' r', turn E s r rest = some s' ∧ s'.included = r' :: rest ∧ At r' t ∧ s'.defs = s.defs ∧ s'.paths = s.paths ∧
      abs s' = emit (abs s) (.header name) := by
  obtain ⟨r1, r2, h1, h2, a2⟩ := turn_begin (r := r) (c := '<') (t := name ++ '>' :: t) hg (by simpa using ha) rfl (by decide) (by decide)
  obtain ⟨r3, h3, a3⟩ := get_at a2
  obtain ⟨r4, h4, a4⟩ := extract_at (p := fun c => c != '\r' && c != '\n' && c != '>') a3
    (by
      intro c hc
      have := ident_plain (List.all_eq_true.mp hi c hc)
      simp [this])
    (by intro c u h; injection h with h _; rw [← h]; decide)
  obtain ⟨r5, h5, a5⟩ := peek_at a4
  obtain ⟨r6, h6, a6⟩ := get_at a5
  have hid : isIdentifier name = true := by
    unfold isIdentifier
    cases name with
    | nil => exact absurd rfl hn
    | cons c n => simpa using hi
  unfold turn
  rw [h1]
  simp only
  rw [h2]
  simp only
  rw [if_neg (by decide), if_pos trivial]
  unfold processHeader
  rw [h3]
  simp only
  rw [h4]
  simp only
  rw [h5]
  simp only [List.head?_cons]
  rw [if_pos hid, h6]
  refine ⟨_, r6, rfl, ?_, a6, ?_, ?_, ?_⟩
  · exact flush_included _
  · show (flush _).defs = _; unfold flush; split <;> rfl
  · show (flush _).paths = _; unfold flush; split <;> rfl
  · simp only [abs, emit, Abs.pending, List.append_nil]
    unfold flush
    simp only
    cases hh : s.header with
    | none => simp [itemOf, blockOf, isProblem]
    | some h => simp [blockOf, isProblem]; rfl

theorem word_head {raw : Text} {c : Char} {u : Text} (hr : raw = c :: u) (hw : ∀ c ∈ raw, isIdentChar c = true ∨ c = '$') :
    isBlank c = false ∧ c ≠ '/' ∧ c ≠ '#' ∧ c ≠ '<' := by
  rcases hw c (by rw [hr]; simp) with h | rfl
  · have := ident_plain h
    refine ⟨?_, this.2.2.1, this.2.2.2.2.2.2.1, this.2.2.2.2.2.1⟩
    simp [isBlank, this]
  · decide

/-- The beginning of an opcode, up to its value. -/
theorem opcode_begin {r : Reader} {gap raw t : Text} (hg : Gap gap (raw ++ '=' :: t))
    (hraw : raw ≠ []) (hw : ∀ c ∈ raw, isIdentChar c = true ∨ c = '$') (ha : At r (gap ++ (raw ++ '=' :: t))) :
    ∃ r1 r2 r3 r4 r5 c, skipBlanks r = ([], r1) ∧ peekChar r1 = (some c, r2) ∧ c ≠ '#' ∧ c ≠ '<' ∧
      extractWhile (fun c => isIdentChar c || c == '$') r2 = (raw, r3) ∧ peekChar r3 = (some '=', r4) ∧ getChar r4 = (some '=', r5) ∧ At r5 t := by
  cases hr : raw with
  | nil => exact absurd hr hraw
  | cons c u =>
    have hh := word_head hr hw
    obtain ⟨r1, r2, h1, h2, a2⟩ := turn_begin (r := r) (c := c) (t := u ++ '=' :: t) hg ha (by rw [hr]; rfl) hh.1 hh.2.1
    obtain ⟨r3, h3, a3⟩ := extract_at (p := fun c => isIdentChar c || c == '$') (r := r2) (a := c :: u) (b := '=' :: t) a2
      (by intro x hx; rw [← hr] at hx; exact isWord_iff.mpr (hw x hx))
      (by intro x y h; injection h with h _; rw [← h]; decide)
    obtain ⟨r4, h4, a4⟩ := peek_at a3
    obtain ⟨r5, h5, a5⟩ := get_at a4
    exact ⟨r1, r2, r3, r4, r5, c, h1, h2, hh.2.2.1, hh.2.2.2, h3, h4, h5, a5⟩

theorem isIdentifier_of {name : Text} (hn : name ≠ []) (hi : name.all isIdentChar = true) : isIdentifier name = true := by
  unfold isIdentifier
  cases name with
  | nil => exact absurd rfl hn
  | cons c n => simpa using hi

theorem turn_opcode {E : Env} {s : PState} {r : Reader} {rest : List Reader} {gap raw value t name v : Text} (hg : Gap gap (raw ++ '=' :: value ++ t))
    (hraw : raw ≠ []) (hw : ∀ c ∈ raw, isIdentChar c = true ∨ c = '$') (hx : E.expand s.defs raw = some (name, [])) (hn : name ≠ [])
    (hi : name.all isIdentChar = true) (hb : name ≠ "base64data".toList) (hv : ValueText value) (ho : OneLine value t) (he : ValueEnds t)
    (hxv : E.expand s.defs value = some (v, [])) (ha : At r (gap ++ raw ++ '=' :: value ++ t)) :
    ∃ s' r', turn E s r rest = some s' ∧ s'.included = r' :: rest ∧ At r' t ∧ s'.defs = s.defs ∧ s'.paths = s.paths ∧
      abs s' = emit (abs s) (.opcode name v) := by
  obtain ⟨r1, r2, r3, r4, r5, c, h1, h2, hc1, hc2, h3, h4, h5, a5⟩ := opcode_begin (r := r) (t := value ++ t) (by simpa using hg) hraw hw (by simpa using ha)
  obtain ⟨r6, u, h6, e6, a6⟩ := eol_at a5
  rw [lineOf_append ho] at h6 e6
  have hsplit := splitValue_at he.line ((value ++ lineOf t).length + 1) hv (by omega)
  have a7 := putBack_at a6 (lineOf t)
  have htu : t = lineOf t ++ u := by
    rw [List.append_assoc] at e6
    exact List.append_cancel_left e6
  rw [← htu] at a7
  have hid := isIdentifier_of hn hi
  unfold turn
  rw [h1]
  simp only
  rw [h2]
  simp only
  rw [if_neg hc1, if_neg hc2]
  unfold processOpcode
  rw [h3]
  obtain ⟨rc, ru, hr⟩ : ∃ rc ru, raw = rc :: ru := by
    cases raw with
    | nil => exact absurd rfl hraw
    | cons rc ru => exact ⟨rc, ru, rfl⟩
  rw [hr]
  simp only
  rw [h4]
  simp only
  rw [← hr, hx]
  simp only
  rw [if_pos hid, if_neg hb]
  unfold processValue
  rw [h5]
  simp only
  rw [h6]
  simp only
  rw [hsplit]
  simp only
  rw [hxv]
  refine ⟨_, putBackChars r6 (lineOf t), rfl, ?_, a7, ?_, ?_, ?_⟩
  · rfl
  · rfl
  · rfl
  · simp only [abs, emit]
    cases hh : s.header with
    | none => simp [blockOf, isProblem]; rfl
    | some h => simp [itemOf, blockOf, isProblem]

theorem turn_data {E : Env} {s : PState} {r : Reader} {rest : List Reader} {gap raw value t : Text} (hg : Gap gap (raw ++ '=' :: value ++ t))
    (hraw : raw ≠ []) (hw : ∀ c ∈ raw, isIdentChar c = true ∨ c = '$') (hx : E.expand s.defs raw = some ("base64data".toList, []))
    (hv1 : '<' ∉ value) (hv2 : '#' ∉ value) (he : t = [] ∨ t.head? = some '<' ∨ t.head? = some '#')
    (ha : At r (gap ++ raw ++ '=' :: value ++ t)) :
    ∃ s' r', turn E s r rest = some s' ∧ s'.included = r' :: rest ∧ At r' t ∧ s'.defs = s.defs ∧ s'.paths = s.paths ∧
      (s.header ≠ none → abs s' = emit (abs s) (.opcode "base64data".toList value)) := by
  obtain ⟨r1, r2, r3, r4, r5, c, h1, h2, hc1, hc2, h3, h4, h5, a5⟩ := opcode_begin (r := r) (t := value ++ t) (by simpa using hg) hraw hw (by simpa using ha)
  obtain ⟨r6, h6, a6⟩ := extract_at (p := fun c => !(c == '<' || c == '#')) a5
    (by
      intro c hc
      have e1 : c ≠ '<' := by rintro rfl; exact hv1 hc
      have e2 : c ≠ '#' := by rintro rfl; exact hv2 hc
      simp [e1, e2])
    (by
      rintro c u rfl
      rcases he with he | he | he
      · simp at he
      · simp at he; subst he; decide
      · simp at he; subst he; decide)
  unfold turn
  rw [h1]
  simp only
  rw [h2]
  simp only
  rw [if_neg hc1, if_neg hc2]
  unfold processOpcode
  rw [h3]
  obtain ⟨rc, ru, hr⟩ : ∃ rc ru, raw = rc :: ru := by
    cases raw with
    | nil => exact absurd rfl hraw
    | cons rc ru => exact ⟨rc, ru, rfl⟩
  rw [hr]
  simp only
  rw [h4]
  simp only
  rw [← hr, hx]
  simp only
  rw [if_pos (by decide), if_pos trivial]
  unfold processData
  rw [h5]
  simp only
  rw [h6]
  refine ⟨_, r6, rfl, ?_, a6, ?_, ?_, ?_⟩
  · rfl
  · rfl
  · rfl
  · intro hh
    simp only [abs, emit]
    cases hh' : s.header with
    | none => exact absurd hh' hh
    | some h => simp [itemOf, blockOf, isProblem]

/-- The beginning of a directive. -/
theorem directive_begin {r : Reader} {gap word t : Text} (hg : Gap gap ('#' :: word ++ t)) (hw : ∀ c ∈ word, isIdentChar c = true)
    (ht : ∀ c u, t = c :: u → isIdentChar c = false) (ha : At r (gap ++ ('#' :: word ++ t))) :
    ∃ r1 r2 r3 r4, skipBlanks r = ([], r1) ∧ peekChar r1 = (some '#', r2) ∧ getChar r2 = (some '#', r3) ∧ extractWhile isIdentChar r3 = (word, r4) ∧ At r4 t := by
  obtain ⟨r1, r2, h1, h2, a2⟩ := turn_begin (r := r) (c := '#') (t := word ++ t) hg (by simpa using ha) rfl (by decide) (by decide)
  obtain ⟨r3, h3, a3⟩ := get_at a2
  obtain ⟨r4, h4, a4⟩ := extract_at (p := isIdentChar) a3 hw ht
  exact ⟨r1, r2, r3, r4, h1, h2, h3, h4, a4⟩

theorem space_not_ident {c : Char} (h : c = ' ' ∨ c = '\t') : isIdentChar c = false := by rcases h with rfl | rfl <;> decide

theorem turn_define {E : Env} {s : PState} {r : Reader} {rest : List Reader} {gap sp1 id sp2 value t : Text}
    (hg : Gap gap ("#define".toList ++ sp1 ++ '$' :: id ++ sp2 ++ value ++ t)) (hs1 : ∀ c ∈ sp1, c = ' ' ∨ c = '\t') (hs2 : ∀ c ∈ sp2, c = ' ' ∨ c = '\t')
    (hid : id ≠ []) (hi : id.all isIdentChar = true) (hnx : ∀ c u, sp2 ++ value ++ t = c :: u → isIdentChar c = false)
    (hv1 : ' ' ∉ value) (hv2 : '\t' ∉ value) (ho : OneLine value t) (he : LineEnds t ∨ value ≠ [] ∧ (t.head? = some ' ' ∨ t.head? = some '\t'))
    (ha : At r (gap ++ "#define".toList ++ sp1 ++ '$' :: id ++ sp2 ++ value ++ t)) :
    ∃ s' r', turn E s r rest = some s' ∧ s'.included = r' :: rest ∧ At r' t ∧ s'.defs = (id, value) :: s.defs ∧ s'.paths = s.paths ∧ abs s' = abs s := by
  obtain ⟨r1, r2, r3, r4, h1, h2, h3, h4, a4⟩ := directive_begin (r := r) (gap := gap) (word := "define".toList) (t := sp1 ++ ('$' :: (id ++ (sp2 ++ (value ++ t)))))
    (by simpa using hg) (by decide)
    (by
      intro c u h
      cases sp1 with
      | nil => injection h with h _; rw [← h]; decide
      | cons d sp => injection h with h _; rw [← h]; exact space_not_ident (hs1 d (by simp)))
    (by simpa using ha)
  have a5 := (skip_at (p := isSpaceChar) a4 (fun c hc => isSpace_iff.mpr (hs1 c hc)) (by intro c u h; injection h with h _; rw [← h]; decide)).2
  obtain ⟨r6, h6, a6⟩ := exact_at a5
  obtain ⟨r7, h7, a7⟩ := extract_at (p := isIdentChar) a6 (List.all_eq_true.mp hi) (by simpa using hnx)
  have hnosp : ∀ c u, value ++ t = c :: u → isSpaceChar c = false := by
    intro c u h
    cases value with
    | nil =>
      rcases he with he | he
      · rw [List.nil_append] at h
        rcases he with he | ⟨d, w, he, hd⟩
        · rw [he] at h; simp at h
        · rw [he] at h
          injection h with h _
          subst h
          rcases hd with rfl | rfl | ⟨rfl, _⟩ <;> decide
      · exact absurd rfl he.1
    | cons d v =>
      injection h with h _
      subst h
      have e1 : d ≠ ' ' := by rintro rfl; exact hv1 (by simp)
      have e2 : d ≠ '\t' := by rintro rfl; exact hv2 (by simp)
      simp [isSpaceChar, e1, e2]
  have a8 := (skip_at (p := isSpaceChar) (a := sp2) (b := value ++ t) a7 (fun c hc => isSpace_iff.mpr (hs2 c hc)) hnosp).2
  obtain ⟨r9, u, h9, e9, a9⟩ := eol_at a8
  rw [lineOf_append ho] at h9 e9
  have htu : t = lineOf t ++ u := by
    rw [List.append_assoc] at e9
    exact List.append_cancel_left e9
  have a10 := putBack_at a9 (lineOf t)
  rw [← htu] at a10
  have hline : ∀ c w, lineOf t = c :: w → isSpaceChar c = true := by
    intro c w h
    have hh := lineOf_head h
    rcases he with he | he
    · rw [lineOf_ends he] at h; simp at h
    · rcases he.2 with he | he
      · rw [he] at hh; injection hh with hh; rw [← hh]; decide
      · rw [he] at hh; injection hh with hh; rw [← hh]; decide
  have hval : (value ++ lineOf t).takeWhile (fun c => !isSpaceChar c) = value ∧ (value ++ lineOf t).dropWhile (fun c => !isSpaceChar c) = lineOf t := by
    apply takeWhile_exact
    · intro c hc
      have e1 : c ≠ ' ' := by rintro rfl; exact hv1 hc
      have e2 : c ≠ '\t' := by rintro rfl; exact hv2 hc
      simp [isSpaceChar, e1, e2]
    · intro c w h; simp [hline c w h]
  unfold turn
  rw [h1]
  simp only
  rw [h2]
  simp only
  rw [if_pos trivial]
  unfold processDirective
  rw [h3]
  simp only
  rw [h4]
  simp only
  rw [if_pos trivial]
  unfold processDefine
  rw [h6]
  simp only
  rw [h7]
  obtain ⟨rc, ru, hr⟩ : ∃ rc ru, id = rc :: ru := by
    cases id with
    | nil => exact absurd rfl hid
    | cons rc ru => exact ⟨rc, ru, rfl⟩
  subst hr
  simp only
  rw [h9]
  simp only
  rw [hval.1, hval.2]
  refine ⟨_, putBackChars r9 (lineOf t), rfl, ?_, a10, ?_, ?_, ?_⟩
  · rfl
  · rfl
  · rfl
  · simp [abs]

/-- The beginning of an `#include`, up to the file. -/
theorem turn_include {E : Env} {s : PState} {r : Reader} {rest : List Reader} {gap sp path p t : Text}
    (hg : Gap gap ("#include".toList ++ sp ++ '"' :: path ++ '"' :: t)) (hs : ∀ c ∈ sp, c = ' ' ∨ c = '\t') (h1 : '"' ∉ path) (h2 : '\r' ∉ path)
    (h3 : '\n' ∉ path) (hx : E.expand s.defs path = some (p, [])) (ha : At r (gap ++ "#include".toList ++ sp ++ '"' :: path ++ '"' :: t)) :
    ∃ s1 r' st sp, turn E s r rest = some (includeFile E s1 (slashes p) st sp) ∧ s1.included = r' :: rest ∧ At r' t ∧ s1.defs = s.defs ∧
      s1.paths = s.paths ∧ abs s1 = abs s := by
  obtain ⟨r1, r2, r3, r4, e1, e2, e3, e4, a4⟩ := directive_begin (r := r) (gap := gap) (word := "include".toList) (t := sp ++ ('"' :: (path ++ '"' :: t)))
    (by simpa using hg) (by decide)
    (by
      intro c u h
      cases sp with
      | nil => injection h with h _; rw [← h]; decide
      | cons d sp => injection h with h _; rw [← h]; exact space_not_ident (hs d (by simp)))
    (by simpa using ha)
  have a5 := (skip_at (p := isSpaceChar) a4 (fun c hc => isSpace_iff.mpr (hs c hc)) (by intro c u h; injection h with h _; rw [← h]; decide)).2
  obtain ⟨r6, e6, a6⟩ := exact_at a5
  obtain ⟨r7, e7, a7⟩ := extract_at (p := fun c => c != '"' && c != '\r' && c != '\n') a6
    (by
      intro c hc
      have n1 : c ≠ '"' := by rintro rfl; exact h1 hc
      have n2 : c ≠ '\r' := by rintro rfl; exact h2 hc
      have n3 : c ≠ '\n' := by rintro rfl; exact h3 hc
      simp [n1, n2, n3])
    (by intro c u h; injection h with h _; rw [← h]; decide)
  obtain ⟨r8, e8, a8⟩ := exact_at a7
  refine ⟨{ s with included := r8 :: rest, events := s.events ++ [] ++ [] }, r8, r2.loc, r8.loc, ?_, rfl, a8, rfl, rfl, ?_⟩
  · unfold turn
    rw [e1]
    simp only
    rw [e2]
    simp only
    rw [if_pos trivial]
    unfold processDirective
    rw [e3]
    simp only
    rw [e4]
    simp only
    rw [if_neg (by decide), if_pos trivial]
    unfold processInclude
    rw [e6]
    simp only
    rw [e7]
    simp only
    rw [e8]
    simp only
    rw [hx]
    rfl
  · simp [abs]

/-- No opcode comes before the first header. -/
def Ready (h : Option Text) (items : List Item) : Prop := h ≠ none ∨ items = [] ∨ ∃ n l, items = .header n :: l

theorem emits_header (items : List Item) : ∀ a : Abs, a.header ≠ none → (items.foldl emit a).header ≠ none := by
  induction items with
  | nil => intro a h; exact h
  | cons i items ih =>
    intro a h
    apply ih
    cases i with
    | header n => exact Option.some_ne_none _
    | opcode n v => exact h

theorem Ready.left {h : Option Text} {a b : List Item} (k : Ready h (a ++ b)) : Ready h a := by
  rcases k with k | k | ⟨n, l, k⟩
  · exact Or.inl k
  · exact Or.inr (Or.inl (List.append_eq_nil_iff.mp k).1)
  · cases a with
    | nil => exact Or.inr (Or.inl rfl)
    | cons i a => injection k with k1 _; exact Or.inr (Or.inr ⟨n, a, by rw [k1]⟩)

theorem Ready.right {x : Abs} {a b : List Item} (k : Ready x.header (a ++ b)) : Ready (a.foldl emit x).header b := by
  cases a with
  | nil => exact k
  | cons i a =>
    left
    rcases k with k | k | ⟨n, l, k⟩
    · exact emits_header _ _ k
    · simp at k
    · injection k with k1 _
      subst k1
      exact emits_header a (emit x (.header n)) (Option.some_ne_none _)

theorem Ready.tail {x : Abs} {i : Item} {b : List Item} (k : Ready x.header (i :: b)) : Ready (emit x i).header b :=
  Ready.right (a := [i]) k

theorem Ready.opcode {h : Option Text} {n v : Text} {b : List Item} (k : Ready h (.opcode n v :: b)) : h ≠ none := by
  rcases k with k | k | ⟨m, l, k⟩
  · exact k
  · simp at k
  · injection k with k1 _; cases k1

/-- A written text is read to its end, and says what it says. -/
theorem written_run {E : Env} {n : Nat} {st st' : Defs × List Text} {text : Text} {items : List Item} (h : Written E n st text st' items) :
    ∀ (s : PState) (r : Reader) (rest : List Reader), s.included = r :: rest → rest.length + 1 = n → At r text → (s.defs, s.paths) = st →
      Ready s.header items → ∃ s', Reach E s s' ∧ s'.included = rest ∧ (s'.defs, s'.paths) = st' ∧ abs s' = items.foldl emit (abs s) := by
  induction h with
  | done n st gap hg =>
    intro s r rest hi hn ha hst _
    exact ⟨{ s with included := rest }, Reach.one hi (turn_end hg ha), rfl, hst, rfl⟩
  | header n st st' gap name t items hg h1 h2 _ ih =>
    intro s r rest hi hn ha hst hr
    obtain ⟨s1, r1, e1, e2, e3, e4, e5, e6⟩ := turn_header (E := E) (s := s) (rest := rest) hg h1 h2 ha
    obtain ⟨s2, k1, k2, k3, k4⟩ := ih s1 r1 rest e2 hn e3 (by rw [e4, e5]; exact hst)
      (by rw [show s1.header = (abs s1).header from rfl, e6]; exact Ready.tail (x := abs s) hr)
    exact ⟨s2, (Reach.one hi e1).trans k1, k2, k3, by rw [k4, e6]; rfl⟩
  | opcode n st st' gap raw value t name v items hg h1 h2 h3 h4 h5 h6 h7 h8 h9 h10 _ ih =>
    intro s r rest hi hn ha hst hr
    subst hst
    obtain ⟨s1, r1, e1, e2, e3, e4, e5, e6⟩ := turn_opcode (E := E) (s := s) (rest := rest) hg h1 h2 h3 h4 h5 h6 h7 h8 h9 h10 ha
    obtain ⟨s2, k1, k2, k3, k4⟩ := ih s1 r1 rest e2 hn e3 (by rw [e4, e5])
      (by rw [show s1.header = (abs s1).header from rfl, e6]; exact Ready.tail (x := abs s) hr)
    exact ⟨s2, (Reach.one hi e1).trans k1, k2, k3, by rw [k4, e6]; rfl⟩
  | data n st st' gap raw value t items hg h1 h2 h3 h4 h5 h6 _ ih =>
    intro s r rest hi hn ha hst hr
    subst hst
    obtain ⟨s1, r1, e1, e2, e3, e4, e5, e6⟩ := turn_data (E := E) (s := s) (rest := rest) hg h1 h2 h3 h4 h5 h6 ha
    have e6 := e6 hr.opcode
    obtain ⟨s2, k1, k2, k3, k4⟩ := ih s1 r1 rest e2 hn e3 (by rw [e4, e5])
      (by rw [show s1.header = (abs s1).header from rfl, e6]; exact Ready.tail (x := abs s) hr)
    exact ⟨s2, (Reach.one hi e1).trans k1, k2, k3, by rw [k4, e6]; rfl⟩
  | define n defs paths st' gap sp1 id sp2 value t items hg h1 h2 h3 h4 h5 h6 h7 h8 h9 _ ih =>
    intro s r rest hi hn ha hst hr
    obtain ⟨s1, r1, e1, e2, e3, e4, e5, e6⟩ := turn_define (E := E) (s := s) (rest := rest) hg h1 h2 h3 h4 h5 h6 h7 h8 h9 ha
    injection hst with q1 q2
    obtain ⟨s2, k1, k2, k3, k4⟩ := ih s1 r1 rest e2 hn e3 (by rw [e4, e5, q1, q2])
      (by rw [show s1.header = (abs s1).header from rfl, e6]; exact hr)
    exact ⟨s2, (Reach.one hi e1).trans k1, k2, k3, by rw [k4, e6]⟩
  | skipped n defs paths st' gap sp path p t items hg h1 h2 h3 h4 h5 h6 h7 _ ih =>
    intro s r rest hi hn ha hst hr
    injection hst with q1 q2
    subst q1 q2
    obtain ⟨s1, r1, a, b, e1, e2, e3, e4, e5, e6⟩ := turn_include (E := E) (s := s) (rest := rest) hg h1 h2 h3 h4 h5 ha
    have hinc : includeFile E s1 (slashes p) a b = s1 := by
      unfold includeFile
      rw [if_pos ⟨by rw [e5]; exact h7, h6⟩]
    rw [hinc] at e1
    obtain ⟨s2, k1, k2, k3, k4⟩ := ih s1 r1 rest e2 hn e3 (by rw [e4, e5])
      (by rw [show s1.header = (abs s1).header from rfl, e6]; exact hr)
    exact ⟨s2, (Reach.one hi e1).trans k1, k2, k3, by rw [k4, e6]⟩
  | included n defs paths st1 st' gap sp path p file t inner items hg h1 h2 h3 h4 h5 h6 h7 h8 _ _ ih1 ih2 =>
    intro s r rest hi hn ha hst hr
    injection hst with q1 q2
    subst q1 q2
    obtain ⟨s1, r1, a, b, e1, e2, e3, e4, e5, e6⟩ := turn_include (E := E) (s := s) (rest := rest) hg h1 h2 h3 h4 h5 ha
    have hinc : includeFile E s1 (slashes p) a b =
        { s1 with paths := E.resolve (slashes p) :: s1.paths, included := newReader (E.resolve (slashes p)) false file :: s1.included } := by
      unfold includeFile
      rw [if_neg (by rw [e5]; exact fun hh => h6 ⟨hh.2, hh.1⟩), if_neg (by rw [e2, List.length_cons, hn]; exact h7), h8]
    rw [hinc] at e1
    generalize hs2 : ({ s1 with paths := E.resolve (slashes p) :: s1.paths, included := newReader (E.resolve (slashes p)) false file :: s1.included } : PState) = s2 at e1
    have f1 : s2.included = newReader (E.resolve (slashes p)) false file :: r1 :: rest := by rw [← hs2, ← e2]
    have f2 : (s2.defs, s2.paths) = (s.defs, E.resolve (slashes p) :: s.paths) := by rw [← hs2, ← e4, ← e5]
    have f3 : abs s2 = abs s := by rw [← e6, ← hs2]; rfl
    have f4 : s2.header = s.header := congrArg Abs.header f3
    obtain ⟨s3, k1, k2, k3, k4⟩ := ih1 s2 _ (r1 :: rest) f1 (by rw [List.length_cons, hn]) ⟨by simp [Plain, newReader], by simp [Reader.left, Reader.rest, newReader]⟩
      f2 (by rw [f4]; exact hr.left)
    obtain ⟨s4, m1, m2, m3, m4⟩ := ih2 s3 r1 rest k2 hn e3 k3
      (by rw [show s3.header = (abs s3).header from rfl, k4, f3]; exact Ready.right (x := abs s) hr)
    exact ⟨s4, ((Reach.one hi e1).trans k1).trans m1, m2, m3, by rw [m4, k4, f3, List.foldl_append]⟩

theorem run_stays {E : Env} {s : PState} (h : s.included = []) (n : Nat) : run E n s = some s := by
  induction n with
  | zero => rfl
  | succ n ih => unfold run step; rw [h]; exact ih

/-- A parse has one result. -/
theorem parses_unique {E : Env} {external : Defs} {path : Text} {signed : Bool} {text : Text} {s t : PState}
    (h : Parses E external path signed text s) (k : Parses E external path signed text t) : s = t := by
  obtain ⟨n, s1, h1, h2, rfl⟩ := h
  obtain ⟨m, t1, k1, k2, rfl⟩ := k
  have e1 := run_add E n m _ s1 h1
  have e2 := run_add E m n _ t1 k1
  rw [run_stays h2] at e1
  rw [run_stays k2, Nat.add_comm, e1] at e2
  rw [Option.some.inj e2]

/-- The opcodes before the next header. -/
def leading (items : List Item) : List (Text × Text) :=
  (items.takeWhile (fun i => match i with | .opcode _ _ => true | .header _ => false)).filterMap
    (fun i => match i with | .opcode a b => some (a, b) | .header _ => none)

theorem emits_blocks (items : List Item) : ∀ (h : Text) (os : List (Text × Text)) (is : List Item) (bs : List (Text × List (Text × Text))) (p : Bool),
    (items.foldl emit ⟨some h, os, is, bs, p⟩).items = is ++ items ∧ (items.foldl emit ⟨some h, os, is, bs, p⟩).problem = p ∧
    (items.foldl emit ⟨some h, os, is, bs, p⟩).blocks ++ (items.foldl emit ⟨some h, os, is, bs, p⟩).pending =
      bs ++ (h, os ++ leading items) :: sections items := by
  induction items with
  | nil => intro h os is bs p; simp [Abs.pending, leading, sections]
  | cons i items ih =>
    intro h os is bs p
    cases i with
    | header n =>
      have := ih n [] (is ++ [.header n]) (bs ++ [(h, os)]) p
      rw [List.foldl_cons]
      show (items.foldl emit ⟨some n, [], is ++ [.header n], bs ++ [(h, os)], p⟩).items = _ ∧ _
      refine ⟨by rw [this.1]; simp, this.2.1, ?_⟩
      refine this.2.2.trans ?_
      rw [show leading (.header n :: items) = [] from rfl, show sections (.header n :: items) = (n, leading items) :: sections items from rfl]
      simp
    | opcode n v =>
      have := ih h (os ++ [(n, v)]) (is ++ [.opcode n v]) bs p
      rw [List.foldl_cons]
      have he : emit ⟨some h, os, is, bs, p⟩ (.opcode n v) = ⟨some h, os ++ [(n, v)], is ++ [.opcode n v], bs, p⟩ := by simp [emit]
      rw [he]
      refine ⟨by rw [this.1]; simp, this.2.1, ?_⟩
      refine this.2.2.trans ?_
      simp [leading, sections]

/-- **C26.** A text written for a document — headers and opcodes with any blanks and comments between them, definitions, files included — that
begins with a header is parsed: the headers and opcodes reported are those of the document, in order; every header is reported with its
opcodes; there is no error and no warning. -/
theorem document_parsed (E : Env) (external : Defs) (path : Text) (signed : Bool) (text : Text) (st' : Defs × List Text) (items : List Item)
    (hm : E.maxDepth ≠ 0) (hp : signed = true → eofByte ∉ text) (h : Written E 1 (external, [path]) text st' items)
    (hh : items = [] ∨ ∃ n l, items = .header n :: l) :
    (∃ s, Parses E external path signed text s) ∧ ∀ s, Parses E external path signed text s →
      s.events.filterMap itemOf = items ∧ s.events.filterMap blockOf = sections items ∧ s.events.any isProblem = false ∧ s.defs = st'.1 := by
  have hs : start E external path signed text = ⟨external, [newReader path signed text], [path], none, [], []⟩ := by
    unfold start; rw [if_neg hm]
  have hat : At (newReader path signed text) text := by
    refine ⟨hp, ?_⟩
    simp only [Reader.left, Reader.rest, newReader, List.nil_append]
    cases hsg : signed with
    | false => rfl
    | true =>
      show text.filter (fun c => c != eofByte) = text
      rw [List.filter_eq_self.mpr]
      intro a ha
      have : a ≠ eofByte := fun e => hp hsg (e ▸ ha)
      simp [this]
  obtain ⟨s', ⟨n, hn⟩, h2, h3, h4⟩ := written_run h (start E external path signed text) (newReader path signed text) []
    (by rw [hs]) rfl hat (by rw [hs]) (Or.inr hh)
  have hpar : Parses E external path signed text (flush s') := ⟨n, s', hn, h2, rfl⟩
  refine ⟨⟨_, hpar⟩, ?_⟩
  intro s hs'
  rw [parses_unique hs' hpar]
  have hd : s'.defs = st'.1 := congrArg Prod.fst h3
  rw [hs] at h4
  have ha0 : abs ⟨external, [newReader path signed text], [path], none, [], []⟩ = ⟨none, [], [], [], false⟩ := rfl
  rw [ha0] at h4
  have hfl : (flush s').events.filterMap itemOf = (abs s').items ∧ (flush s').events.filterMap blockOf = (abs s').blocks ++ (abs s').pending ∧
      (flush s').events.any isProblem = (abs s').problem ∧ (flush s').defs = s'.defs := by
    unfold flush
    cases hx : s'.header with
    | none => simp [abs, Abs.pending, hx]
    | some h => simp [abs, Abs.pending, hx, itemOf, blockOf, isProblem]
  rw [hfl.1, hfl.2.1, hfl.2.2.1, hfl.2.2.2, h4]
  rcases hh with rfl | ⟨m, l, rfl⟩
  · exact ⟨rfl, rfl, rfl, hd⟩
  · have := emits_blocks l m [] [.header m] [] false
    exact ⟨this.1, this.2.2, this.2.1, hd⟩

end Verif.Parser
