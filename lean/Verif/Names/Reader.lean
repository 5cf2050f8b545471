import Verif.Names.Model
import Mathlib.Data.List.Basic
import Mathlib.Tactic.Push

/-!
A reader of XML, written from the recommendation (XML 1.0, fifth edition) and not from the code: it says what any reader makes of the
exported document. Only documents of the plain kind are read: tags, attributes in double quotes, text, comments, a declaration and a
document type without subset. Names of tags and attributes are of letters.

`read_save` says that this reader finds again what pugixml writes.
-/
namespace Verif.Names

/-! ### The reader -/

/-- The characters that a document may contain (production 2). -/
def legal (c : Char) : Bool := c == '\t' || c == '\n' || c == '\r' || decide (32 ≤ c.toNat)

/-- The ends of lines as they are read (2.11). -/
def lineEnds : Text → Text
  | [] => []
  | c :: r => if c = '\r' then (if r.head? = some '\n' then lineEnds r else '\n' :: lineEnds r) else c :: lineEnds r

/-- The character that a reference stands for (4.1, 4.6). -/
def expand (e : Text) : Option Char :=
  if e = ['a', 'm', 'p'] then some '&'
  else if e = ['l', 't'] then some '<'
  else if e = ['g', 't'] then some '>'
  else if e = ['q', 'u', 'o', 't'] then some '"'
  else if e = ['a', 'p', 'o', 's'] then some '\''
  else match e with
    | '#' :: d :: ds =>
      if (d :: ds).all Char.isDigit ∧ legal (Char.ofNat (Nat.ofDigitChars 10 (d :: ds) 0)) then some (Char.ofNat (Nat.ofDigitChars 10 (d :: ds) 0)) else none
    | _ => none

/-- The text of an attribute (3.3.3) or of an element (2.4). The first argument is the reference being read, if any. -/
def decode (inAttribute : Bool) : Option Text → Text → Option Text
  | none, [] => some []
  | some _, [] => none
  | none, c :: r =>
    if c = '&' then decode inAttribute (some []) r
    else if c = '<' ∨ legal c = false then none
    else if inAttribute ∧ (c = '\t' ∨ c = '\n' ∨ c = '\r') then (decode inAttribute none r).map (' ' :: ·)
    else (decode inAttribute none r).map (c :: ·)
  | some e, c :: r =>
    if c = ';' then
      match expand e with
      | none => none
      | some x => (decode inAttribute none r).map (x :: ·)
    else decode inAttribute (some (e ++ [c])) r

/-- What follows `p` in `s`. -/
def strip (p s : Text) : Option Text := if p.isPrefixOf s then some (s.drop p.length) else none

/-- The attributes of a tag, whether the element is empty, and what follows the tag (3.1). -/
def readAttributes : Nat → Text → Option (List (Text × Text) × Bool × Text)
  | 0, _ => none
  | f + 1, s =>
    match strip [' '] s with
    | some r => readAttributes f r
    | none =>
      match strip ['>'] s with
      | some r => some ([], false, r)
      | none =>
        match strip ['/', '>'] s with
        | some r => some ([], true, r)
        | none =>
          if s.takeWhile Char.isAlpha = [] then none
          else
            match strip ['=', '"'] (s.dropWhile Char.isAlpha) with
            | none => none
            | some r =>
              match strip ['"'] (r.dropWhile (· != '"')) with
              | none => none
              | some rest =>
                match decode true none (r.takeWhile (· != '"')), readAttributes f rest with
                | some v, some (as, x) => some ((s.takeWhile Char.isAlpha, v) :: as, x)
                | _, _ => none

/-- A comment, up to its end (2.5). -/
def readComment : Text → Option (Text × Text)
  | [] => none
  | c :: r =>
    match strip ['-', '-', '>'] (c :: r) with
    | some rest => some ([], rest)
    | none =>
      match strip ['-', '-'] (c :: r) with
      | some _ => none
      | none => (readComment r).map (fun x => (c :: x.1, x.2))

/-- What follows a `<`: what it is, and what comes after. The declaration is left out. -/
def readTag (s : Text) : Option (Option Item × Text) :=
  match strip ['?'] s with
  | some r =>
    match strip ['?', '>'] (r.dropWhile (· != '?')) with
    | some rest => some (none, rest)
    | none => none
  | none =>
    match strip ['!', '-', '-'] s with
    | some r => (readComment r).map (fun x => (some (.comment x.1), x.2))
    | none =>
      match strip ['!', 'D', 'O', 'C', 'T', 'Y', 'P', 'E', ' '] s with
      | some r =>
        match strip ['>'] (r.dropWhile (· != '>')) with
        | some rest => some (some (.doctype (r.takeWhile (· != '>'))), rest)
        | none => none
      | none =>
        match strip ['/'] s with
        | some r =>
          match strip ['>'] (r.dropWhile Char.isAlpha) with
          | some rest => some (some (.stop (r.takeWhile Char.isAlpha)), rest)
          | none => none
        | none =>
          if s.takeWhile Char.isAlpha = [] then none
          else
            match readAttributes (s.length + 1) (s.dropWhile Char.isAlpha) with
            | none => none
            | some (as, isEmpty, rest) =>
              if (as.map Prod.fst).Nodup then
                some (some (if isEmpty then .empty (s.takeWhile Char.isAlpha) as else .start (s.takeWhile Char.isAlpha) as), rest)
              else none

/-- Blanks (production 3). -/
def blank (c : Char) : Bool := c == ' ' || c == '\t' || c == '\n' || c == '\r'

/-- The items of a document. Text of blanks only is left out. -/
def readItems : Nat → Text → Option (List Item)
  | 0, _ => none
  | _ + 1, [] => some []
  | f + 1, c :: r =>
    if c = '<' then
      match readTag r with
      | none => none
      | some (i, rest) => (readItems f rest).map (i.toList ++ ·)
    else if ((c :: r).takeWhile (· != '<')).all blank then readItems f ((c :: r).dropWhile (· != '<'))
    else
      match decode false none ((c :: r).takeWhile (· != '<')) with
      | none => none
      | some v => (readItems f ((c :: r).dropWhile (· != '<'))).map (.text v :: ·)

/-- Each end tag ends the element that was begun last and not ended, and text is inside of elements (3.1). -/
def nested : List Text → List Item → Bool
  | stack, [] => stack.isEmpty
  | stack, .start n _ :: is => nested (n :: stack) is
  | stack, .stop n :: is =>
    match stack with
    | [] => false
    | m :: rest => n == m && nested rest is
  | stack, .text _ :: is => !stack.isEmpty && nested stack is
  | stack, _ :: is => nested stack is

/-- What a document says, if it is well-formed. -/
def readXml (s : Text) : Option (List Item) :=
  match readItems (s.length + 1) (lineEnds s) with
  | some is => if nested [] is then some is else none
  | none => none

/-! ### Reading what was written -/

theorem strip_append (p r : Text) : strip p (p ++ r) = some r := by
  have : p.isPrefixOf (p ++ r) = true := by rw [List.isPrefixOf_iff_prefix]; exact List.prefix_append p r
  simp [strip, this]

theorem strip_self (p : Text) : strip p p = some [] := by simpa using strip_append p []

theorem strip_cons (a : Char) (p : Text) (c : Char) (s : Text) : strip (a :: p) (c :: s) = if a = c then strip p s else none := by
  by_cases h : a = c
  · subst h; simp [strip, List.isPrefixOf]
  · simp [strip, List.isPrefixOf, h]

theorem strip_nil (s : Text) : strip [] s = some s := by simp [strip]

theorem strip_of_empty (a : Char) (p : Text) : strip (a :: p) [] = none := by simp [strip, List.isPrefixOf]

theorem takeWhile_append_of (p : Char → Bool) (a : Text) (c : Char) (r : Text) (ha : ∀ x ∈ a, p x = true) (hc : p c = false) :
    (a ++ c :: r).takeWhile p = a ∧ (a ++ c :: r).dropWhile p = c :: r := by
  induction a with
  | nil => simp [hc]
  | cons x a ih =>
    have hx := ha x (by simp)
    have := ih (fun y hy => ha y (by simp [hy]))
    simp [hx, this]

theorem takeWhile_all (p : Char → Bool) (a : Text) (ha : ∀ x ∈ a, p x = true) : a.takeWhile p = a ∧ a.dropWhile p = [] := by
  induction a with
  | nil => simp
  | cons x a ih =>
    have hx := ha x (by simp)
    have := ih (fun y hy => ha y (by simp [hy]))
    simp [hx, this]

/-- The numbers of the characters below 32. -/
theorem low_char (c : Char) (h : c.toNat < 32) : ∃ n, n < 32 ∧ c = Char.ofNat n := ⟨c.toNat, h, (Char.ofNat_toNat c).symm⟩

theorem decode_reference (b : Bool) (c : Char) (r : Text) (h : c.toNat < 32) (hl : legal c = true) :
    decode b none (reference c ++ r) = (decode b none r).map (c :: ·) := by
  have hc : c = '\t' ∨ c = '\n' ∨ c = '\r' := by
    simp only [legal, Bool.or_eq_true, beq_iff_eq, decide_eq_true_eq] at hl
    rcases hl with ((h1 | h1) | h1) | h1
    · exact Or.inl h1
    · exact Or.inr (Or.inl h1)
    · exact Or.inr (Or.inr h1)
    · omega
  rcases hc with rfl | rfl | rfl
  · show decode b none ('&' :: '#' :: '0' :: '9' :: ';' :: r) = _
    have : expand ['#', '0', '9'] = some '\t' := by decide +kernel
    simp [decode, this]
  · show decode b none ('&' :: '#' :: '1' :: '0' :: ';' :: r) = _
    have : expand ['#', '1', '0'] = some '\n' := by decide +kernel
    simp [decode, this]
  · show decode b none ('&' :: '#' :: '1' :: '3' :: ';' :: r) = _
    have : expand ['#', '1', '3'] = some '\r' := by decide +kernel
    simp [decode, this]

theorem expand_amp : expand ['a', 'm', 'p'] = some '&' := by decide +kernel
theorem expand_lt : expand ['l', 't'] = some '<' := by decide +kernel
theorem expand_gt : expand ['g', 't'] = some '>' := by decide +kernel
theorem expand_quot : expand ['q', 'u', 'o', 't'] = some '"' := by decide +kernel

theorem decode_escapeAttribute (c : Char) (r : Text) (hl : legal c = true) :
    decode true none (escapeAttribute c ++ r) = (decode true none r).map (c :: ·) := by
  unfold escapeAttribute
  split_ifs with h1 h2 h3 h4
  · subst h1; simp [decode, expand_amp]
  · subst h2; simp [decode, expand_lt]
  · subst h3; simp [decode, expand_quot]
  · exact decode_reference true c r h4 hl
  · have : ¬ (c = '\t' ∨ c = '\n' ∨ c = '\r') := by
      rintro (rfl | rfl | rfl) <;> exact h4 (by decide)
    simp [decode, h1, h2, hl, this]

theorem decode_escapeText (c : Char) (r : Text) (hl : legal c = true) :
    decode false none (escapeText c ++ r) = (decode false none r).map (c :: ·) := by
  unfold escapeText
  split_ifs with h1 h2 h3 h4
  · subst h1; simp [decode, expand_amp]
  · subst h2; simp [decode, expand_lt]
  · subst h3; simp [decode, expand_gt]
  · exact decode_reference false c r h4.1 hl
  · simp [decode, h1, h2, hl]

theorem decode_attribute (v : Text) (hl : ∀ c ∈ v, legal c = true) : decode true none (v.flatMap escapeAttribute) = some v := by
  induction v with
  | nil => simp [decode]
  | cons c v ih =>
    rw [List.flatMap_cons, decode_escapeAttribute c _ (hl c (by simp)), ih (fun x hx => hl x (by simp [hx]))]
    rfl

theorem decode_text (v : Text) (hl : ∀ c ∈ v, legal c = true) : decode false none (v.flatMap escapeText) = some v := by
  induction v with
  | nil => simp [decode]
  | cons c v ih =>
    rw [List.flatMap_cons, decode_escapeText c _ (hl c (by simp)), ih (fun x hx => hl x (by simp [hx]))]
    rfl

/-- Escaped text of an attribute has none of the characters that mean something there. -/
theorem mem_escapeAttribute (c x : Char) (hl : legal c = true) (h : x ∈ escapeAttribute c) : x ≠ '"' ∧ x ≠ '<' ∧ x ≠ '\r' := by
  unfold escapeAttribute at h
  split_ifs at h with h1 h2 h3 h4
  · simp at h; rcases h with rfl | rfl | rfl | rfl | rfl <;> decide
  · simp at h; rcases h with rfl | rfl | rfl | rfl <;> decide
  · simp at h; rcases h with rfl | rfl | rfl | rfl | rfl | rfl <;> decide
  · obtain ⟨n, hn, rfl⟩ := low_char c h4
    have key : ∀ n : Fin 32, ∀ x ∈ reference (Char.ofNat n.1), x ≠ '"' ∧ x ≠ '<' ∧ x ≠ '\r' := by decide +kernel
    exact key ⟨n, hn⟩ x h
  · simp at h; subst h
    refine ⟨h3, h2, ?_⟩
    rintro rfl; exact h4 (by decide)

theorem mem_escapeText (c x : Char) (hc : c ≠ '\r') (h : x ∈ escapeText c) : x ≠ '<' ∧ x ≠ '\r' := by
  unfold escapeText at h
  split_ifs at h with h1 h2 h3 h4
  · simp at h; rcases h with rfl | rfl | rfl | rfl | rfl <;> decide
  · simp at h; rcases h with rfl | rfl | rfl | rfl <;> decide
  · simp at h; rcases h with rfl | rfl | rfl | rfl <;> decide
  · obtain ⟨n, hn, rfl⟩ := low_char c h4.1
    have key : ∀ n : Fin 32, ∀ x ∈ reference (Char.ofNat n.1), x ≠ '<' ∧ x ≠ '\r' := by decide +kernel
    exact key ⟨n, hn⟩ x h
  · simp at h; subst h
    exact ⟨h2, hc⟩

/-! ### Tags -/

/-- A name of a tag or of an attribute. -/
def GoodName (n : Text) : Prop := n ≠ [] ∧ ∀ c ∈ n, c.isAlpha = true

instance (n : Text) : Decidable (GoodName n) := by unfold GoodName; infer_instance

/-- Attributes that a reader finds again. -/
def GoodAttributes (as : List (Text × Text)) : Prop :=
  (as.map Prod.fst).Nodup ∧ ∀ a ∈ as, GoodName a.1 ∧ ∀ c ∈ a.2, legal c = true

instance (as : List (Text × Text)) : Decidable (GoodAttributes as) := by unfold GoodAttributes; infer_instance

/-- An item that a reader finds again. -/
def GoodItem : Item → Prop
  | .doctype v => ∀ c ∈ v, c ≠ '>' ∧ c ≠ '\r'
  | .comment v => ∀ c ∈ v, c ≠ '-' ∧ c ≠ '\r'
  | .text v => (∀ c ∈ v, legal c = true ∧ c ≠ '\r') ∧ ∃ c ∈ v, blank c = false
  | .start n as => GoodName n ∧ GoodAttributes as
  | .empty n as => GoodName n ∧ GoodAttributes as
  | .stop n => GoodName n

instance : DecidablePred GoodItem := fun i => by cases i <;> unfold GoodItem <;> infer_instance

theorem not_alpha {c : Char} (h : c.isAlpha = true) (x : Char) (hx : x.isAlpha = false) : x ≠ c := by
  rintro rfl; rw [h] at hx; cases hx

theorem strip_name {n : Text} (hn : GoodName n) (a : Char) (p r : Text) (ha : a.isAlpha = false) : strip (a :: p) (n ++ r) = none := by
  obtain ⟨h1, h2⟩ := hn
  cases n with
  | nil => exact absurd rfl h1
  | cons c n =>
    rw [List.cons_append, strip_cons, if_neg (not_alpha (h2 c (by simp)) a ha)]

theorem readAttributes_write (as : List (Text × Text)) (tail : Text) (isEmpty : Bool) (rest : Text)
    (ht : ∀ f, 2 ≤ f → readAttributes f (tail ++ rest) = some ([], isEmpty, rest)) :
    ∀ f, (as.flatMap writeAttribute).length + 2 ≤ f → (∀ a ∈ as, GoodName a.1 ∧ ∀ c ∈ a.2, legal c = true) →
      readAttributes f (as.flatMap writeAttribute ++ tail ++ rest) = some (as, isEmpty, rest) := by
  induction as with
  | nil => intro f hf _; simpa using ht f (by simpa using hf)
  | cons a as ih =>
    intro f hf hg
    obtain ⟨⟨hn, ha⟩, hv⟩ := hg a (by simp)
    have hlen : (as.flatMap writeAttribute).length + 2 + 2 ≤ f := by
      simp only [List.flatMap_cons, List.length_append, writeAttribute, List.length_cons] at hf
      omega
    obtain ⟨f, rfl⟩ : ∃ g, f = g + 2 := ⟨f - 2, by omega⟩
    have hrec := ih f (by omega) (fun b hb => hg b (by simp [hb]))
    have e : (a :: as).flatMap writeAttribute ++ tail ++ rest =
        ' ' :: (a.1 ++ ('=' :: '"' :: (a.2.flatMap escapeAttribute ++ '"' :: (as.flatMap writeAttribute ++ tail ++ rest)))) := by
      simp [writeAttribute]
    rw [e]
    have s1 : strip [' '] (' ' :: (a.1 ++ ('=' :: '"' :: (a.2.flatMap escapeAttribute ++ '"' :: (as.flatMap writeAttribute ++ tail ++ rest))))) =
        some (a.1 ++ ('=' :: '"' :: (a.2.flatMap escapeAttribute ++ '"' :: (as.flatMap writeAttribute ++ tail ++ rest)))) := by
      rw [strip_cons, if_pos rfl, strip_nil]
    have w1 := takeWhile_append_of Char.isAlpha a.1 '=' ('"' :: (a.2.flatMap escapeAttribute ++ '"' :: (as.flatMap writeAttribute ++ tail ++ rest)))
      ha (by decide)
    have w2 := takeWhile_append_of (· != '"') (a.2.flatMap escapeAttribute) '"' (as.flatMap writeAttribute ++ tail ++ rest)
      (by
        intro x hx
        obtain ⟨c, hc, hx⟩ := List.mem_flatMap.1 hx
        simpa using (mem_escapeAttribute c x (hv c hc) hx).1)
      (by decide)
    rw [readAttributes, s1]
    simp only
    rw [readAttributes, strip_name ⟨hn, ha⟩ _ _ _ (by decide), strip_name ⟨hn, ha⟩ _ _ _ (by decide), strip_name ⟨hn, ha⟩ _ _ _ (by decide)]
    simp only [w1.1, w1.2, if_neg hn]
    rw [strip_cons, if_pos rfl, strip_cons, if_pos rfl, strip_nil]
    simp only [w2.1, w2.2]
    rw [strip_cons, if_pos rfl, strip_nil]
    simp only [decode_attribute a.2 hv, hrec]

theorem readComment_write (v rest : Text) (hv : ∀ c ∈ v, c ≠ '-') : readComment (v ++ '-' :: '-' :: '>' :: rest) = some (v, rest) := by
  induction v with
  | nil => simp [readComment, strip_cons, strip_nil]
  | cons c v ih =>
    have hc : '-' ≠ c := fun h => hv c (by simp) h.symm
    rw [List.cons_append, readComment, strip_cons, if_neg hc, strip_cons, if_neg hc, ih (fun x hx => hv x (by simp [hx]))]
    rfl

theorem writeComment_eq (v : Text) (hv : ∀ c ∈ v, c ≠ '-') : writeComment v = v := by
  induction v with
  | nil => simp [writeComment]
  | cons c v ih =>
    have hc : c ≠ '-' := hv c (by simp)
    rw [writeComment, ih (fun x hx => hv x (by simp [hx]))]
    · rintro rfl; exact absurd rfl hc
    · intro r; rintro rfl; exact absurd rfl hc

/-- What a tag is read as. -/
theorem readTag_write (i : Item) (hi : GoodItem i) (ht : ∀ v, i ≠ .text v) :
    ∃ r, writeTag i = '<' :: r ∧ ∀ rest, readTag (r ++ rest) = some (some i, rest) := by
  cases i with
  | text v => exact absurd rfl (ht v)
  | doctype v =>
    refine ⟨['!', 'D', 'O', 'C', 'T', 'Y', 'P', 'E', ' '] ++ v ++ ['>'], rfl, fun rest => ?_⟩
    have w := takeWhile_append_of (· != '>') v '>' rest (by intro x hx; simpa using (hi x hx).1) (by decide)
    have e : ['!', 'D', 'O', 'C', 'T', 'Y', 'P', 'E', ' '] ++ v ++ ['>'] ++ rest =
      ['!', 'D', 'O', 'C', 'T', 'Y', 'P', 'E', ' '] ++ (v ++ '>' :: rest) := by simp
    have s1 : strip ['?'] (['!', 'D', 'O', 'C', 'T', 'Y', 'P', 'E', ' '] ++ (v ++ '>' :: rest)) = none := by
      rw [List.cons_append, strip_cons, if_neg (by decide)]
    have s2 : strip ['!', '-', '-'] (['!', 'D', 'O', 'C', 'T', 'Y', 'P', 'E', ' '] ++ (v ++ '>' :: rest)) = none := by
      rw [List.cons_append, strip_cons, if_pos rfl, List.cons_append, strip_cons, if_neg (by decide)]
    rw [e, readTag, s1, s2]
    simp only [strip_append, w.1, w.2]
    rw [strip_cons, if_pos rfl, strip_nil]
  | comment v =>
    have hv : ∀ c ∈ v, c ≠ '-' := fun c hc => (hi c hc).1
    refine ⟨['!', '-', '-'] ++ writeComment v ++ ['-', '-', '>'], rfl, fun rest => ?_⟩
    rw [writeComment_eq v hv]
    have e : ['!', '-', '-'] ++ v ++ ['-', '-', '>'] ++ rest = ['!', '-', '-'] ++ (v ++ '-' :: '-' :: '>' :: rest) := by simp
    have s1 : strip ['?'] (['!', '-', '-'] ++ (v ++ '-' :: '-' :: '>' :: rest)) = none := by
      rw [List.cons_append, strip_cons, if_neg (by decide)]
    rw [e, readTag, s1]
    simp only [strip_append]
    rw [readComment_write v rest hv]
    rfl
  | stop n =>
    refine ⟨'/' :: n ++ ['>'], rfl, fun rest => ?_⟩
    have w := takeWhile_append_of Char.isAlpha n '>' rest hi.2 (by decide)
    have e : '/' :: n ++ ['>'] ++ rest = '/' :: (n ++ '>' :: rest) := by simp
    rw [e, readTag, strip_cons, if_neg (by decide), strip_cons, if_neg (by decide), strip_cons, if_neg (by decide), strip_cons, if_pos rfl, strip_nil]
    simp only [w.1, w.2]
    rw [strip_cons, if_pos rfl, strip_nil]
  | start n as =>
    obtain ⟨hn, hd, ha⟩ := hi
    refine ⟨n ++ as.flatMap writeAttribute ++ ['>'], by simp [writeTag], fun rest => ?_⟩
    have hr := readAttributes_write as ['>'] false rest (by
      intro f hf
      obtain ⟨f, rfl⟩ : ∃ g, f = g + 1 := ⟨f - 1, by omega⟩
      rw [List.cons_append, readAttributes, strip_cons, if_neg (by decide), strip_cons, if_pos rfl, strip_nil]
      rfl)
    have e : n ++ as.flatMap writeAttribute ++ ['>'] ++ rest = n ++ (as.flatMap writeAttribute ++ ['>'] ++ rest) := by simp
    obtain ⟨c, t, hct, hc⟩ : ∃ c t, as.flatMap writeAttribute ++ ['>'] ++ rest = c :: t ∧ c.isAlpha = false := by
      cases as with
      | nil => exact ⟨'>', rest, rfl, by decide⟩
      | cons a as => exact ⟨' ', _, by simp [writeAttribute]; rfl, by decide⟩
    have w := takeWhile_append_of Char.isAlpha n c t hn.2 hc
    have hf : (as.flatMap writeAttribute).length + 2 ≤ (n ++ (as.flatMap writeAttribute ++ ['>'] ++ rest)).length + 1 := by
      simp only [List.length_append, List.length_cons, List.length_nil]
      have : 0 < n.length := List.length_pos_of_ne_nil hn.1
      omega
    have hr := hr _ hf ha
    rw [e, readTag, strip_name hn _ _ _ (by decide), strip_name hn _ _ _ (by decide), strip_name hn _ _ _ (by decide), strip_name hn _ _ _ (by decide)]
    simp only
    rw [hct] at hr ⊢
    rw [w.1, w.2, if_neg hn.1, hr]
    simp [hd]
  | empty n as =>
    obtain ⟨hn, hd, ha⟩ := hi
    refine ⟨n ++ as.flatMap writeAttribute ++ [' ', '/', '>'], by simp [writeTag], fun rest => ?_⟩
    have hr := readAttributes_write as [' ', '/', '>'] true rest (by
      intro f hf
      obtain ⟨f, rfl⟩ : ∃ g, f = g + 2 := ⟨f - 2, by omega⟩
      rw [List.cons_append, readAttributes, strip_cons, if_pos rfl, strip_nil]
      simp only
      rw [List.cons_append, readAttributes, strip_cons, if_neg (by decide), strip_cons, if_neg (by decide), strip_cons, if_pos rfl,
        List.cons_append, strip_cons, if_pos rfl, strip_nil]
      rfl)
    have e : n ++ as.flatMap writeAttribute ++ [' ', '/', '>'] ++ rest = n ++ (as.flatMap writeAttribute ++ [' ', '/', '>'] ++ rest) := by simp
    obtain ⟨c, t, hct, hc⟩ : ∃ c t, as.flatMap writeAttribute ++ [' ', '/', '>'] ++ rest = c :: t ∧ c.isAlpha = false := by
      cases as with
      | nil => exact ⟨' ', _, rfl, by decide⟩
      | cons a as => exact ⟨' ', _, by simp [writeAttribute]; rfl, by decide⟩
    have w := takeWhile_append_of Char.isAlpha n c t hn.2 hc
    have hf : (as.flatMap writeAttribute).length + 2 ≤ (n ++ (as.flatMap writeAttribute ++ [' ', '/', '>'] ++ rest)).length + 1 := by
      simp only [List.length_append, List.length_cons, List.length_nil]
      omega
    have hr := hr _ hf ha
    rw [e, readTag, strip_name hn _ _ _ (by decide), strip_name hn _ _ _ (by decide), strip_name hn _ _ _ (by decide), strip_name hn _ _ _ (by decide)]
    simp only
    rw [hct] at hr ⊢
    rw [w.1, w.2, if_neg hn.1, hr]
    simp [hd]

/-! ### The whole document -/

/-- Items that a reader finds again: texts do not follow each other. The first argument tells whether a text comes before. -/
def Good : Bool → List Item → Prop
  | _, [] => True
  | b, .text v :: is => b = false ∧ GoodItem (.text v) ∧ Good true is
  | _, i :: is => GoodItem i ∧ Good false is

/-- One step over a tag, after blanks. -/
theorem readItems_tag (i : Item) (hi : GoodItem i) (ht : ∀ v, i ≠ .text v) (blanks rest : Text) (hb : ∀ c ∈ blanks, c = '\n' ∨ c = '\t')
    (is : List Item) (hr : ∀ f, rest.length < f → readItems f rest = some is) :
    ∀ f, (blanks ++ writeTag i ++ rest).length < f → readItems f (blanks ++ writeTag i ++ rest) = some (i :: is) := by
  obtain ⟨r, hw, hrt⟩ := readTag_write i hi ht
  have step : ∀ f, (writeTag i ++ rest).length < f → readItems f (writeTag i ++ rest) = some (i :: is) := by
    intro f hf
    rw [hw, List.cons_append] at hf ⊢
    obtain ⟨f, rfl⟩ : ∃ g, f = g + 1 := ⟨f - 1, by omega⟩
    rw [readItems, if_pos rfl, hrt rest]
    simp only
    rw [hr f (by simp only [List.length_cons, List.length_append] at hf; omega)]
    rfl
  intro f hf
  cases blanks with
  | nil => simpa using step f (by simpa using hf)
  | cons b bs =>
    have hall : ∀ x ∈ b :: bs, (x != '<') = true := by
      intro x hx; rcases hb x hx with rfl | rfl <;> decide
    have hbl : (b :: bs).all blank = true := by
      rw [List.all_eq_true]; intro x hx; rcases hb x hx with rfl | rfl <;> decide
    have hb' : b ≠ '<' := by simpa using hall b (by simp)
    have w := takeWhile_append_of (· != '<') (b :: bs) '<' (r ++ rest) hall (by decide)
    have e : (b :: bs) ++ writeTag i ++ rest = (b :: bs) ++ '<' :: (r ++ rest) := by rw [hw]; simp
    obtain ⟨f, rfl⟩ : ∃ g, f = g + 1 := ⟨f - 1, by omega⟩
    have hs := step f (by simp only [List.length_append, List.length_cons] at hf ⊢; omega)
    rw [hw, List.cons_append] at hs
    rw [e]
    rw [List.cons_append] at w ⊢
    rw [readItems, if_neg hb', w.1, w.2, if_pos hbl, hs]

/-- What `write` puts before a tag. -/
theorem lead_blank (nl ind : Bool) (d : Nat) :
    ∀ c ∈ (if nl then ['\n'] else []) ++ (if ind then List.replicate d '\t' else []), c = '\n' ∨ c = '\t' := by
  intro c hc
  rcases List.mem_append.1 hc with h | h
  · cases nl <;> simp at h; exact Or.inl h
  · cases ind <;> simp at h; exact Or.inr h.2

theorem write_starts (d : Nat) (is : List Item) (h : Good true is) : write d false false is = [] ∨ ∃ r, write d false false is = '<' :: r := by
  cases is with
  | nil => left; rfl
  | cons i is =>
    right
    cases i with
    | text v => exact absurd h.1 (by decide)
    | doctype v => exact ⟨_, rfl⟩
    | comment v => exact ⟨_, rfl⟩
    | start n as => exact ⟨_, rfl⟩
    | empty n as => exact ⟨_, rfl⟩
    | stop n => exact ⟨_, rfl⟩

theorem readItems_write : ∀ (items : List Item) (b : Bool) (d : Nat) (nl ind : Bool), Good b items →
    ∀ f, (write d nl ind items).length < f → readItems f (write d nl ind items) = some items := by
  intro items
  induction items with
  | nil =>
    intro b d nl ind _ f hf
    cases nl
    · obtain ⟨f, rfl⟩ : ∃ g, f = g + 1 := ⟨f - 1, by omega⟩
      rfl
    · obtain ⟨f, rfl⟩ : ∃ g, f = g + 2 := ⟨f - 2, by simp [write] at hf; omega⟩
      rfl
  | cons i is ih =>
    intro b d nl ind hg f hf
    cases i with
    | text v =>
      obtain ⟨_, ⟨hv, x, hx, hxb⟩, hg⟩ := hg
      have hd := decode_text v (fun c hc => (hv c hc).1)
      have hmem : ∀ y ∈ v.flatMap escapeText, (y != '<') = true := by
        intro y hy
        obtain ⟨c, hc, hy⟩ := List.mem_flatMap.1 hy
        simpa using (mem_escapeText c y (hv c hc).2 hy).1
      -- a character that is not blank is written without blanks
      have hnb : (v.flatMap escapeText).all blank = false := by
        rw [List.all_eq_false]
        have hc : ∃ y ∈ escapeText x, blank y = false := by
          unfold escapeText
          split_ifs with h1 h2 h3 h4
          · exact ⟨'&', by simp, by decide⟩
          · exact ⟨'&', by simp, by decide⟩
          · exact ⟨'&', by simp, by decide⟩
          · exact ⟨'&', by simp [reference], by decide⟩
          · exact ⟨x, by simp, hxb⟩
        obtain ⟨y, hy, hyb⟩ := hc
        exact ⟨y, List.mem_flatMap.2 ⟨x, hx, hy⟩, by simp [hyb]⟩
      obtain ⟨c, t, hct⟩ : ∃ c t, v.flatMap escapeText = c :: t := by
        cases h : v.flatMap escapeText with
        | nil => rw [h] at hnb; exact absurd hnb (by decide)
        | cons c t => exact ⟨c, t, rfl⟩
      have hc : c ≠ '<' := by simpa using hmem c (by rw [hct]; simp)
      have hwr : write d nl ind (.text v :: is) = v.flatMap escapeText ++ write d false false is := rfl
      rw [hwr] at hf ⊢
      have w : (v.flatMap escapeText ++ write d false false is).takeWhile (· != '<') = v.flatMap escapeText ∧
          (v.flatMap escapeText ++ write d false false is).dropWhile (· != '<') = write d false false is := by
        rcases write_starts d is hg with h0 | ⟨r, hr⟩
        · rw [h0, List.append_nil]; exact takeWhile_all _ _ hmem
        · rw [hr]; exact takeWhile_append_of _ _ _ _ hmem (by decide)
      obtain ⟨f, rfl⟩ : ∃ g, f = g + 1 := ⟨f - 1, by omega⟩
      have hrec := ih true d false false hg f (by rw [hct] at hf; simp only [List.length_append, List.length_cons] at hf; omega)
      rw [hct] at w hnb hd ⊢
      rw [List.cons_append] at w ⊢
      rw [readItems, if_neg hc, w.1, w.2, hnb]
      simp only [hd, hrec]
      rfl
    | doctype v =>
      have := readItems_tag (.doctype v) hg.1 (by simp) _ (write d true true is) (lead_blank nl ind d) is (ih false d true true hg.2)
      exact this f hf
    | comment v =>
      have := readItems_tag (.comment v) hg.1 (by simp) _ (write d true true is) (lead_blank nl ind d) is (ih false d true true hg.2)
      exact this f hf
    | empty n as =>
      have := readItems_tag (.empty n as) hg.1 (by simp) _ (write d true true is) (lead_blank nl ind d) is (ih false d true true hg.2)
      exact this f hf
    | start n as =>
      have := readItems_tag (.start n as) hg.1 (by simp) _ (write (d + 1) true true is) (lead_blank nl ind d) is (ih false (d + 1) true true hg.2)
      exact this f hf
    | stop n =>
      have := readItems_tag (.stop n) hg.1 (by simp) _ (write (d - 1) true true is) (lead_blank nl ind (d - 1)) is (ih false (d - 1) true true hg.2)
      exact this f hf

/-! ### Ends of lines -/

theorem lineEnds_eq (s : Text) (h : '\r' ∉ s) : lineEnds s = s := by
  induction s with
  | nil => rfl
  | cons c r ih =>
    have hc : c ≠ '\r' := fun e => h (by simp [e])
    rw [lineEnds, if_neg hc, ih (fun hr => h (by simp [hr]))]

theorem writeAttributes_return (as : List (Text × Text)) (ha : ∀ a ∈ as, GoodName a.1 ∧ ∀ c ∈ a.2, legal c = true) : '\r' ∉ as.flatMap writeAttribute := by
  intro h
  obtain ⟨a, haa, h⟩ := List.mem_flatMap.1 h
  obtain ⟨hn, hv⟩ := ha a haa
  simp only [writeAttribute, List.cons_append, List.mem_cons, List.mem_append, List.mem_flatMap] at h
  rcases h with h | ((h | h | h | h) | ⟨c, hc, h⟩) | h
  · exact absurd h (by decide)
  · exact absurd (hn.2 _ h) (by decide)
  · exact absurd h (by decide)
  · exact absurd h (by decide)
  · cases h
  · exact (mem_escapeAttribute c _ (hv c hc) h).2.2 rfl
  · rcases h with h | h
    · exact absurd h (by decide)
    · cases h

theorem writeTag_return (i : Item) (hi : GoodItem i) : '\r' ∉ writeTag i := by
  have name : ∀ {n : Text}, GoodName n → '\r' ∉ n := fun hn h => absurd (hn.2 _ h) (by decide)
  cases i with
  | doctype v => simp only [writeTag, List.mem_append, not_or]; exact ⟨⟨by decide, fun h => (hi _ h).2 rfl⟩, by decide⟩
  | comment v =>
    simp only [writeTag, List.mem_append, not_or, writeComment_eq v (fun c hc => (hi c hc).1)]
    exact ⟨⟨by decide, fun h => (hi _ h).2 rfl⟩, by decide⟩
  | text v =>
    intro h
    obtain ⟨c, hc, h⟩ := List.mem_flatMap.1 h
    exact (mem_escapeText c _ (hi.1 c hc).2 h).2 rfl
  | start n as =>
    simp only [writeTag, List.cons_append, List.mem_cons, List.mem_append, not_or]
    exact ⟨by decide, ⟨name hi.1, writeAttributes_return as hi.2.2⟩, by decide, by simp⟩
  | empty n as =>
    simp only [writeTag, List.cons_append, List.mem_cons, List.mem_append, not_or]
    exact ⟨by decide, ⟨name hi.1, writeAttributes_return as hi.2.2⟩, by decide, by decide, by decide, by simp⟩
  | stop n =>
    simp only [writeTag, List.mem_append, not_or]
    exact ⟨⟨by decide, name hi⟩, by decide⟩

theorem lead_return (nl ind : Bool) (d : Nat) : '\r' ∉ (if nl then ['\n'] else []) ++ (if ind then List.replicate d '\t' else []) := by
  intro h
  rcases lead_blank nl ind d _ h with h | h <;> exact absurd h (by decide)

theorem not_mem_three {x : Char} {a b c : Text} (ha : x ∉ a) (hb : x ∉ b) (hc : x ∉ c) : x ∉ a ++ b ++ c := by
  simp [ha, hb, hc]

theorem write_return : ∀ (items : List Item) (b : Bool) (d : Nat) (nl ind : Bool), Good b items → '\r' ∉ write d nl ind items := by
  intro items
  induction items with
  | nil => intro b d nl ind _; cases nl <;> simp [write]
  | cons i is ih =>
    intro b d nl ind hg
    cases i with
    | text v =>
      rw [show write d nl ind (.text v :: is) = writeTag (.text v) ++ write d false false is from rfl, List.mem_append, not_or]
      exact ⟨writeTag_return _ hg.2.1, ih true d false false hg.2.2⟩
    | doctype v => exact not_mem_three (lead_return nl ind d) (writeTag_return _ hg.1) (ih false _ true true hg.2)
    | comment v => exact not_mem_three (lead_return nl ind d) (writeTag_return _ hg.1) (ih false _ true true hg.2)
    | empty n as => exact not_mem_three (lead_return nl ind d) (writeTag_return _ hg.1) (ih false _ true true hg.2)
    | start n as => exact not_mem_three (lead_return nl ind d) (writeTag_return _ hg.1) (ih false _ true true hg.2)
    | stop n => exact not_mem_three (lead_return nl ind (d - 1)) (writeTag_return _ hg.1) (ih false _ true true hg.2)

/-- A reader finds again what pugixml writes. -/
theorem read_save (items : List Item) (hg : Good false items) (hn : nested [] items = true) : readXml (save items) = some items := by
  have hr : '\r' ∉ save items := by
    have hd : '\r' ∉ declaration := by decide +kernel
    have hw := write_return items false 0 false true hg
    simp [save, hd, hw]
  have hw := readItems_write items false 0 false true hg
  have e : save items = '<' :: (('?' :: declaration) ++ '?' :: '>' :: '\n' :: write 0 false true items) := by
    simp [save]
  have hw' : ∀ f, (write 0 false true items).length + 1 < f → readItems f ('\n' :: write 0 false true items) = some items := by
    intro f hf
    have : '\n' :: write 0 false true items = write 0 true true items := by
      cases items with
      | nil => rfl
      | cons i is =>
        cases i with
        | text v => exact absurd hn (by simp [nested])
        | _ => rfl
    rw [this]
    exact readItems_write items false 0 true true hg f (by rw [← this]; simpa using hf)
  have w := takeWhile_append_of (· != '?') declaration '?' ('>' :: '\n' :: write 0 false true items)
    (by decide +kernel) (by decide)
  have ht : readTag (('?' :: declaration) ++ '?' :: '>' :: '\n' :: write 0 false true items) =
      some (none, '\n' :: write 0 false true items) := by
    rw [List.cons_append, readTag, strip_cons, if_pos rfl, strip_nil]
    simp only [w.2]
    rw [strip_cons, if_pos rfl, strip_cons, if_pos rfl, strip_nil]
  have : readItems ((save items).length + 1) (save items) = some items := by
    rw [e, readItems, if_pos rfl, ht]
    simp only
    rw [hw' _ (by simp only [List.length_cons, List.length_append]; omega)]
    rfl
  rw [readXml, lineEnds_eq _ hr, this]
  simp [hn]

end Verif.Names
