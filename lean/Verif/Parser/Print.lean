import Verif.Parser.RoundTrip

/-! C26: documents as lists of headers and opcodes, printed with any layout. -/
namespace Verif.Parser

/-- A piece of layout: a blank, a comment up to the end of its line, a comment between `/*` and `*/`. -/
inductive Piece
  | blank (c : Char)
  | line (t : Text) (eol : Char)
  | block (t : Text)
deriving DecidableEq

def Piece.text : Piece → Text
  | .blank c => [c]
  | .line t e => '/' :: '/' :: t ++ [e]
  | .block t => '/' :: '*' :: t ++ ['*', '/']

def Piece.Ok : Piece → Prop
  | .blank c => c ∈ [' ', '\t', '\r', '\n']
  | .line t e => '\r' ∉ t ∧ '\n' ∉ t ∧ e ∈ ['\r', '\n']
  | .block t => ¬ ∃ a b, t = a ++ '*' :: '/' :: b

/-- A layout: pieces one after the other. -/
def layout (ps : List Piece) : Text := ps.flatMap Piece.text

def Item.text : Item → Text
  | .header n => '<' :: n ++ ['>']
  | .opcode n v => n ++ '=' :: v

/-- The textual form of a document: every element with the layout before it, and the layout at the end. -/
def print : List (List Piece × Item) → List Piece → Text
  | [], tail => layout tail
  | (ps, i) :: rest, tail => layout ps ++ i.text ++ print rest tail

def IsName (n : Text) : Prop := n ≠ [] ∧ n.all isIdentChar = true

/-- The layout that follows: that of the next element, or the last one. -/
def nextLayout (rest : List (List Piece × Item)) (tail : List Piece) : List Piece :=
  match rest with
  | [] => tail
  | (ps, _) :: _ => ps

/-- An element that can be written before `rest` and `tail`. The value of an opcode is on one line, has no variable in it, and does not run
into what follows; another opcode must be set apart from it. -/
def ItemOk (rest : List (List Piece × Item)) (tail : List Piece) : Item → Prop
  | .header n => IsName n
  | .opcode n v => IsName n ∧ n ≠ "base64data".toList ∧ '$' ∉ v ∧ '\r' ∉ v ∧ '\n' ∉ v ∧ (∀ a d b, v = a ++ '/' :: d :: b → d ≠ '/' ∧ d ≠ '*') ∧
      ValueText v ∧ (v.getLast? = some '/' → ∀ p ps, nextLayout rest tail = p :: ps → ∃ c, p = .blank c) ∧
      (nextLayout rest tail = [] → ∀ ps n' v' l, rest ≠ (ps, .opcode n' v') :: l)

/-- A document that can be written. -/
def DocOk : List (List Piece × Item) → List Piece → Prop
  | [], tail => ∀ p ∈ tail, p.Ok
  | (ps, i) :: rest, tail => (∀ p ∈ ps, p.Ok) ∧ ItemOk rest tail i ∧ DocOk rest tail

theorem layout_gap {ps : List Piece} (h : ∀ p ∈ ps, p.Ok) (rest : Text) : Gap (layout ps) rest := by
  induction ps with
  | nil => exact .nil rest
  | cons p ps ih =>
    have h1 := h p (by simp)
    have h2 := ih (fun q hq => h q (by simp [hq]))
    unfold layout at h2 ⊢
    rw [List.flatMap_cons]
    cases p with
    | blank c => exact .blank c _ rest h1 h2
    | line t e =>
      have := Gap.line t e _ rest h1.1 h1.2.1 h1.2.2 h2
      simpa [Piece.text] using this
    | block t =>
      have := Gap.block t _ rest h1 h2
      simpa [Piece.text] using this

/-- What can come after a value and its layout. -/
def Follows (t : Text) : Prop := t = [] ∨ t.head? = some '<' ∨ OpcodeNext t

/-- After a space, any layout ends a value. -/
theorem layout_spaces {ps : List Piece} (h : ∀ p ∈ ps, p.Ok) {t : Text} (ht : Follows t) : ∃ sp u, layout ps ++ t = sp ++ u ∧
    (∀ c ∈ sp, c = ' ' ∨ c = '\t') ∧ (LineEnds u ∨ u.head? = some '<' ∨ OpcodeNext u ∨ DirectiveNext u) := by
  induction ps with
  | nil =>
    refine ⟨[], t, rfl, by simp, ?_⟩
    rcases ht with rfl | ht | ht
    · exact Or.inl (Or.inl rfl)
    · exact Or.inr (Or.inl ht)
    · exact Or.inr (Or.inr (Or.inl ht))
  | cons p ps ih =>
    have h1 := h p (by simp)
    obtain ⟨sp, u, e1, e2, e3⟩ := ih (fun q hq => h q (by simp [hq]))
    have hl : layout (p :: ps) ++ t = p.text ++ (layout ps ++ t) := by simp [layout]
    rw [hl]
    cases p with
    | blank c =>
      simp only [Piece.Ok, List.mem_cons, List.not_mem_nil, or_false] at h1
      rcases h1 with rfl | rfl | rfl | rfl
      · exact ⟨' ' :: sp, u, by rw [e1]; rfl, by intro d hd; rcases List.mem_cons.mp hd with rfl | hd; exact Or.inl rfl; exact e2 d hd, e3⟩
      · exact ⟨'\t' :: sp, u, by rw [e1]; rfl, by intro d hd; rcases List.mem_cons.mp hd with rfl | hd; exact Or.inr rfl; exact e2 d hd, e3⟩
      · exact ⟨[], _, rfl, by simp, Or.inl (Or.inr ⟨'\r', _, rfl, Or.inl rfl⟩)⟩
      · exact ⟨[], _, rfl, by simp, Or.inl (Or.inr ⟨'\n', _, rfl, Or.inr (Or.inl rfl)⟩)⟩
    | line tx e => exact ⟨[], _, rfl, by simp, Or.inl (Or.inr ⟨'/', _, rfl, Or.inr (Or.inr ⟨rfl, Or.inl rfl⟩)⟩)⟩
    | block tx => exact ⟨[], _, rfl, by simp, Or.inl (Or.inr ⟨'/', _, rfl, Or.inr (Or.inr ⟨rfl, Or.inr rfl⟩)⟩)⟩

theorem layout_ends {ps : List Piece} (h : ∀ p ∈ ps, p.Ok) {t : Text} (ht : Follows t) (hne : ps = [] → ¬ OpcodeNext t) : ValueEnds (layout ps ++ t) := by
  cases ps with
  | nil =>
    rcases ht with rfl | ht | ht
    · exact Or.inl (Or.inl rfl)
    · exact Or.inr (Or.inl ht)
    · exact absurd ht (hne rfl)
  | cons p ps =>
    obtain ⟨sp, u, e1, e2, e3⟩ := layout_spaces h ht
    cases hsp : sp with
    | cons c sp' => exact Or.inr (Or.inr ⟨sp, u, e1, by rw [hsp]; simp, e2, e3⟩)
    | nil =>
      subst hsp
      rw [List.nil_append] at e1
      rw [e1]
      rcases e3 with e3 | e3 | e3 | e3
      · exact Or.inl e3
      · exact Or.inr (Or.inl e3)
      all_goals
        exfalso
        have hp := h p (by simp)
        have hhead : ∃ c w, u = c :: w ∧ (c = ' ' ∨ c = '\t' ∨ c = '\r' ∨ c = '\n' ∨ c = '/') := by
          rw [← e1]
          cases p with
          | blank c =>
            simp only [Piece.Ok, List.mem_cons, List.not_mem_nil, or_false] at hp
            refine ⟨c, _, rfl, ?_⟩
            rcases hp with rfl | rfl | rfl | rfl <;> simp
          | line tx e => exact ⟨'/', _, rfl, by simp⟩
          | block tx => exact ⟨'/', _, rfl, by simp⟩
        obtain ⟨c, w, rfl, hc⟩ := hhead
        first
        | (obtain ⟨d, w', t', hd, hi, _⟩ := e3
           injection hd with hd _
           subst hd
           have := ident_plain hi
           rcases hc with hc | hc | hc | hc | hc <;> simp [hc] at this)
        | (obtain ⟨w', t', hd, _⟩ := e3
           injection hd with hd _
           subst hd
           rcases hc with hc | hc | hc | hc | hc <;> exact absurd hc (by decide))

theorem print_follows {rest : List (List Piece × Item)} {tail : List Piece} (h : DocOk rest tail) :
    ∃ t, print rest tail = layout (nextLayout rest tail) ++ t ∧ Follows t ∧
      (OpcodeNext t → ∃ ps n v l, rest = (ps, .opcode n v) :: l) ∧ ∀ p ∈ nextLayout rest tail, p.Ok := by
  cases rest with
  | nil => exact ⟨[], by simp [print, nextLayout], Or.inl rfl, by rintro ⟨c, w, t, h, _⟩; simp at h, h⟩
  | cons x rest =>
    obtain ⟨ps, i⟩ := x
    refine ⟨i.text ++ print rest tail, by simp [print, nextLayout], ?_, ?_, h.1⟩
    · cases i with
      | header n => exact Or.inr (Or.inl rfl)
      | opcode n v =>
        right; right
        have hn := h.2.1.1
        cases n with
        | nil => exact absurd rfl hn.1
        | cons c n =>
          have ha := List.all_eq_true.mp hn.2
          exact ⟨c, n, v ++ print rest tail, by simp [Item.text], ha c (by simp), fun d hd => Or.inl (ha d (by simp [hd]))⟩
    · intro ho
      cases i with
      | header n =>
        obtain ⟨c, w, t, hh, hc, _⟩ := ho
        injection hh with hh _
        subst hh
        exact absurd hc (by decide)
      | opcode n v => exact ⟨ps, n, v, rest, rfl⟩

theorem OneLine.of {v t : Text} (h1 : '\r' ∉ v) (h2 : '\n' ∉ v) (h3 : ∀ a d b, v = a ++ '/' :: d :: b → d ≠ '/' ∧ d ≠ '*')
    (h4 : v.getLast? = some '/' → ∀ c u, t = c :: u → c ≠ '/' ∧ c ≠ '*') : OneLine v t := by
  refine ⟨h1, h2, ?_⟩
  intro a d b hab
  cases t with
  | nil => rw [List.take_nil, List.append_nil] at hab; exact h3 a d b hab
  | cons c u =>
    rw [List.take_succ_cons, List.take_zero] at hab
    rcases List.eq_nil_or_concat b with rfl | ⟨b', e, rfl⟩
    · have : v ++ [c] = (a ++ ['/']) ++ [d] := by rw [hab]; simp
      obtain ⟨e1, e2⟩ := List.append_inj' this rfl
      injection e2 with e2 _
      subst e2
      exact h4 (by rw [e1]; simp) c u rfl
    · have : v ++ [c] = (a ++ '/' :: d :: b') ++ [e] := by rw [hab]; simp
      obtain ⟨e1, _⟩ := List.append_inj' this rfl
      exact h3 a d b' e1

/-- Printed documents are written texts. -/
theorem print_written (E : Env) (hE : ∀ defs t, '$' ∉ t → E.expand defs t = some (t, [])) (n : Nat) (st : Defs × List Text) (tail : List Piece) :
    ∀ doc, DocOk doc tail → Written E n st (print doc tail) st (doc.map Prod.snd) := by
  intro doc
  induction doc with
  | nil => intro h; exact .done n st _ (layout_gap h [])
  | cons x rest ih =>
    obtain ⟨ps, i⟩ := x
    intro h
    have hrest := ih h.2.2
    cases i with
    | header name =>
      have := Written.header n st st (layout ps) name (print rest tail) _ (layout_gap h.1 _) h.2.1.1 h.2.1.2 hrest
      simpa [print, Item.text] using this
    | opcode name v =>
      obtain ⟨hn, hb, hd, hr, hl, hc, hv, hs, hsep⟩ := h.2.1
      have hall := List.all_eq_true.mp hn.2
      have hnd : '$' ∉ name := fun hh => absurd (hall _ hh) (by decide)
      obtain ⟨t, e1, e2, e3, e4⟩ := print_follows h.2.2
      have hends : ValueEnds (print rest tail) := by
        rw [e1]
        refine layout_ends e4 e2 ?_
        intro hnil ho
        obtain ⟨ps', n', v', l, hr'⟩ := e3 ho
        exact hsep hnil ps' n' v' l hr'
      have hone : OneLine v (print rest tail) := by
        refine OneLine.of hr hl hc ?_
        intro hlast c u hcu
        rw [e1] at hcu
        cases hnl : nextLayout rest tail with
        | nil =>
          rw [hnl] at hcu
          simp only [layout, List.flatMap_nil, List.nil_append] at hcu
          rw [hcu] at e2
          rcases e2 with h | h | ⟨d, w, t', h, hi, _⟩
          · simp at h
          · simp at h; subst h; decide
          · injection h with h _
            subst h
            have := ident_plain hi
            refine ⟨this.2.2.1, ?_⟩
            rintro rfl
            exact absurd hi (by decide)
        | cons p ps' =>
          obtain ⟨d, rfl⟩ := hs hlast p ps' hnl
          rw [hnl] at hcu e4
          have hok := e4 _ (List.mem_cons_self)
          simp only [layout, List.flatMap_cons, Piece.text, List.singleton_append, List.cons_append, List.cons.injEq] at hcu
          rw [← hcu.1]
          simp only [Piece.Ok, List.mem_cons, List.not_mem_nil, or_false] at hok
          rcases hok with rfl | rfl | rfl | rfl <;> decide
      have := Written.opcode n st st (layout ps) name v (print rest tail) name v _ (layout_gap h.1 _) hn.1 (fun c hc => Or.inl (hall c hc))
        (hE _ _ hnd) hn.1 hn.2 hb hv hone hends (hE _ _ hd) hrest
      simpa [print, Item.text] using this

/-- **C26, for printed documents.** For every document — a list of headers and opcodes that begins with a header — and every layout, parsing the printed
text reports that list, and every header with its opcodes, without errors or warnings. -/
theorem print_parsed (files : Text → Option Text) (resolve : Text → Text) (maxDepth : Nat) (guard : Bool) (k : Nat) (external : Defs) (path : Text)
    (signed : Bool) (doc : List (List Piece × Item)) (tail : List Piece) (hm : maxDepth ≠ 0) (hp : signed = true → eofByte ∉ print doc tail)
    (hd : DocOk doc tail) (hh : doc = [] ∨ ∃ ps n l, doc = (ps, .header n) :: l) :
    (∃ s, Parses (envWith files resolve maxDepth guard (k + 1)) external path signed (print doc tail) s) ∧
    ∀ s, Parses (envWith files resolve maxDepth guard (k + 1)) external path signed (print doc tail) s →
      s.events.filterMap itemOf = doc.map Prod.snd ∧ s.events.filterMap blockOf = sections (doc.map Prod.snd) ∧ s.events.any isProblem = false := by
  have hw := print_written (envWith files resolve maxDepth guard (k + 1)) (fun defs t ht => expand_plain defs t ht k) 1 (external, [path]) tail doc hd
  have := document_parsed _ external path signed _ _ _ hm hp hw (by
    rcases hh with rfl | ⟨ps, n, l, rfl⟩
    · exact Or.inl rfl
    · exact Or.inr ⟨n, _, rfl⟩)
  exact ⟨this.1, fun s hs => ⟨(this.2 s hs).1, (this.2 s hs).2.1, (this.2 s hs).2.2.1⟩⟩

/-! ### Concrete documents -/

theorem ValueText.simple {v : Text} (h1 : '<' ∉ v) (h2 : '=' ∉ v) (h3 : '#' ∉ v) (h4 : v.getLast? ≠ some ' ') (h5 : v.getLast? ≠ some '\t') : ValueText v := by
  refine ⟨h1, ?_⟩
  rintro a c b rfl hc
  refine ⟨?_, ?_, ?_⟩
  · rintro rfl
    rcases hc with rfl | rfl
    · exact h4 (by simp)
    · exact h5 (by simp)
  · rintro ⟨d, w, t, rfl, _⟩
    exact h2 (by simp)
  · rintro ⟨w, t, rfl, _⟩
    exact h3 (by simp)

def sampleDoc : List (List Piece × Item) :=
  [([.line " kit".toList '\n'], .header "group".toList), ([], .header "region".toList),
    ([.blank ' ', .block "*".toList], .opcode "sample".toList "a b/c.wav".toList), ([.blank ' ', .blank ' '], .opcode "key".toList "60".toList)]

example : print sampleDoc [.blank '\n'] = "// kit\n<group><region> /***/sample=a b/c.wav  key=60\n".toList := by decide

example : DocOk sampleDoc [.blank '\n'] := by
  have hs : ValueText "a b/c.wav".toList := ValueText.simple (by decide) (by decide) (by decide) (by decide) (by decide)
  have hk : ValueText "60".toList := ValueText.simple (by decide) (by decide) (by decide) (by decide) (by decide)
  have hslash : ∀ a d b, "a b/c.wav".toList = a ++ '/' :: d :: b → d ≠ '/' ∧ d ≠ '*' := by
    intro a d b h
    match a, h with
    | [], h => simp at h
    | [_], h => simp at h
    | [_, _], h => simp at h
    | [_, _, _], h => simp at h; rw [← h.2.2.2.1]; decide
    | _ :: _ :: _ :: _ :: a, h =>
      have : '/' ∈ "c.wav".toList := by
        simp at h
        have h5 : "c.wav".toList = a ++ '/' :: d :: b := h.2.2.2.2
        rw [h5]; simp
      exact absurd this (by decide)
  have hno : ∀ a d b, "60".toList = a ++ '/' :: d :: b → d ≠ '/' ∧ d ≠ '*' := by
    intro a d b h
    have : '/' ∈ "60".toList := by rw [h]; simp
    exact absurd this (by decide)
  refine ⟨?_, ⟨by decide, by decide⟩, by simp, ⟨by decide, by decide⟩, ?_, ⟨⟨by decide, by decide⟩, by decide, by decide, by decide, by decide, hslash, hs, fun h => absurd h (by decide), ?_⟩, ?_,
    ⟨⟨by decide, by decide⟩, by decide, by decide, by decide, by decide, hno, hk, fun h => absurd h (by decide), ?_⟩, ?_⟩
  · simp [Piece.Ok]
  · intro p hp
    simp only [List.mem_cons, List.not_mem_nil, or_false] at hp
    rcases hp with rfl | rfl
    · simp [Piece.Ok]
    · rintro ⟨a, b, h⟩
      have : '/' ∈ "*".toList := by rw [h]; simp
      exact absurd this (by decide)
  · intro h; simp [nextLayout] at h
  · simp [Piece.Ok]
  · intro h; simp [nextLayout] at h
  · intro p hp
    simp only [List.mem_cons, List.not_mem_nil, or_false] at hp
    subst hp
    simp [Piece.Ok]

/-- The document `<region> sample=aÿb`, `ÿ` being the byte 255. -/
def byteDoc : List (List Piece × Item) := [([], .header "region".toList), ([.blank ' '], .opcode "sample".toList ['a', eofByte, 'b'])]

/-- **C26.** Without the condition on the byte 255, a document parsed from a string is not the one that was written: the value is cut at
this byte. -/
theorem print_parsed_violated : DocOk byteDoc [] ∧ ∃ s, Parses (envWith (fun _ => none) id 32 false 2) [] [] true (print byteDoc []) s ∧
    s.events.filterMap itemOf ≠ byteDoc.map Prod.snd ∧ s.events.any isProblem = true := by
  constructor
  · have hv : ValueText ['a', eofByte, 'b'] := ValueText.simple (by decide) (by decide) (by decide) (by decide) (by decide)
    refine ⟨by simp, ⟨by decide, by decide⟩, by simp [Piece.Ok], ⟨⟨by decide, by decide⟩, by decide, by decide, by decide, by decide, ?_, hv, fun h => absurd h (by decide), ?_⟩, by simp [DocOk]⟩
    · intro a d b h
      have : '/' ∈ ['a', eofByte, 'b'] := by rw [h]; simp
      exact absurd this (by decide)
    · intro _ ps n v l h; simp at h
  · obtain ⟨s', h1, h2⟩ : ∃ s', run (envWith (fun _ => none) id 32 false 2) 4 (start (envWith (fun _ => none) id 32 false 2) [] [] true (print byteDoc [])) = some s' ∧
        s'.included = [] ∧ (flush s').events.filterMap itemOf ≠ byteDoc.map Prod.snd ∧ (flush s').events.any isProblem = true := by
      have : ((run (envWith (fun _ => none) id 32 false 2) 4 (start (envWith (fun _ => none) id 32 false 2) [] [] true (print byteDoc []))).map
        (fun s' => decide (s'.included = [] ∧ (flush s').events.filterMap itemOf ≠ byteDoc.map Prod.snd ∧ (flush s').events.any isProblem = true))) = some true := by
        decide +kernel
      cases hr : run (envWith (fun _ => none) id 32 false 2) 4 (start (envWith (fun _ => none) id 32 false 2) [] [] true (print byteDoc [])) with
      | none => rw [hr] at this; simp at this
      | some s' =>
        rw [hr] at this
        exact ⟨s', rfl, of_decide_eq_true (Option.some.inj this)⟩
    exact ⟨flush s', ⟨4, s', h1, h2.1, rfl⟩, h2.2⟩

end Verif.Parser
