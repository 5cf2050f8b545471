import Verif.Import.Props

/-! Properties of the import of DecentSampler presets (C115). -/
namespace Verif.Import
open Verif.Opcode (trim isSpace isDigit decimal octaveText decimal_spec readLeadingInt)
open Verif.Parser (Item Piece IsName ValueText eofByte Parses envWith itemOf blockOf isProblem DocOk ItemOk print layout sections isIdentChar)
open Verif.Loader (seen seenFrom Op Block Header Region sfz settings parseOpcode)

/-! ### Specification -/

/-- The opcodes of an element: those of its attributes, in the given order. -/
def opcodesOf (R : Reals) (n : Node) : List (Text × Text) := n.filterMap (convertAttribute R)

/-- The blocks of the instrument: an optional `control` with the image, `global` for `groups`, then every `group` followed by one `region` per
sample. -/
def blocksOf (R : Reals) (p : Preset) : List (Text × List (Text × Text)) :=
  (if p.image = [] then [] else [("control".toList, [("image".toList, p.image)])]) ++
  ("global".toList, opcodesOf R p.groups) ::
  p.parts.flatMap (fun g => ("group".toList, opcodesOf R g.1) :: g.2.map (fun s => ("region".toList, opcodesOf R s)))

/-- The attributes of a preset. -/
def attributesOf (p : Preset) : Node := p.groups ++ p.parts.flatMap (fun g => g.1 ++ g.2.flatten)

/-- The characters of written numbers (also `inf` and `nan`). -/
def numberChars : Text := "0123456789+-.einfa".toList

/-- Real numbers are written with the characters of numbers. -/
def NumberText (t : Text) : Prop := ∀ c ∈ t, c ∈ numberChars

def Reals.Sound (R : Reals) : Prop := ∀ v t, R.plain v = some t ∨ R.frames v = some t ∨ R.percent v = some t → NumberText t

/-- The texts of a preset that are copied into the instrument can be quoted: the image, the paths of samples, the triggers. -/
def Preset.Quotable (p : Preset) : Prop :=
  Import.Quotable p.image ∧ ∀ a ∈ attributesOf p, (seen a.1).1 = "path".toList ∨ (seen a.1).1 = "trigger".toList → Import.Quotable (trim a.2)

/-! ### The text is the printed document -/

/-- The elements of a block. -/
def itemsOf (b : Text × List (Text × Text)) : List Item := .header b.1 :: b.2.map (fun o => .opcode o.1 o.2)

/-- Elements, one per line. -/
def lines (is : List Item) : Text := is.flatMap (fun i => i.text ++ ['\n'])

theorem emit_lines (R : Reals) (n : Node) : emitText R n = lines ((opcodesOf R n).map (fun o => .opcode o.1 o.2)) := by
  induction n with
  | nil => rfl
  | cons a n ih =>
    simp only [emitText, List.flatMap_cons, opcodesOf, List.filterMap_cons] at ih ⊢
    cases convertAttribute R a with
    | none => simpa using ih
    | some o =>
      obtain ⟨k, v⟩ := o
      simp only [List.map_cons, lines, List.flatMap_cons, Item.text] at ih ⊢
      rw [ih]

theorem header_line (name : Text) (R : Reals) (n : Node) :
    '<' :: name ++ ['>', '\n'] ++ emitText R n = lines (itemsOf (name, opcodesOf R n)) := by
  simp [itemsOf, lines, Item.text, emit_lines]

theorem lines_append (a b : List Item) : lines (a ++ b) = lines a ++ lines b := by simp [lines]

theorem parts_lines (R : Reals) (parts : List (Node × List Node)) : parts.flatMap (groupText R) =
    lines ((parts.flatMap (fun g => ("group".toList, opcodesOf R g.1) :: g.2.map (fun s => ("region".toList, opcodesOf R s)))).flatMap itemsOf) := by
  have regions : ∀ ss : List Node, ss.flatMap (fun s => "<region>\n".toList ++ emitText R s) =
      lines ((ss.map (fun s => ("region".toList, opcodesOf R s))).flatMap itemsOf) := by
    intro ss
    induction ss with
    | nil => rfl
    | cons s ss ih =>
      rw [List.flatMap_cons, ih, List.map_cons, List.flatMap_cons, lines_append, ← header_line]
      rfl
  induction parts with
  | nil => rfl
  | cons g parts ih =>
    have e : groupText R g = '<' :: "group".toList ++ ['>', '\n'] ++ emitText R g.1 ++ g.2.flatMap (fun s => "<region>\n".toList ++ emitText R s) := rfl
    rw [List.flatMap_cons, ih, List.flatMap_cons, List.flatMap_append, lines_append, List.flatMap_cons, lines_append, ← header_line, ← regions, ← e]

/-- Lines as a document: a line end after every element. -/
theorem lines_print : ∀ (i : Item) (is : List Item) (ps : List Piece),
    print ((ps, i) :: is.map (fun j => ([.blank '\n'], j))) [.blank '\n'] = layout ps ++ lines (i :: is) := by
  intro i is
  induction is generalizing i with
  | nil => intro ps; simp [print, lines, layout, Piece.text]
  | cons j is ih =>
    intro ps
    have := ih j [.blank '\n']
    simp only [List.map_cons] at this ⊢
    rw [print, this]
    simp [lines, layout, Piece.text]

/-! ### Quotable texts -/

theorem numberText_quotable {t : Text} (h : NumberText t) : Quotable t := by
  have no : ∀ c, c ∉ numberChars → c ∉ t := fun c hc hm => hc (h c hm)
  refine ⟨no _ (by decide), no _ (by decide), no _ (by decide), ?_, ?_, no _ (by decide)⟩
  · rintro a d b rfl
    exact absurd (h '/' (by simp)) (by decide)
  · refine ValueText.simple (no _ (by decide)) (no _ (by decide)) (no _ (by decide)) ?_ ?_
    · intro hl; exact no ' ' (by decide) (List.mem_of_getLast? hl)
    · intro hl; exact no '\t' (by decide) (List.mem_of_getLast? hl)

theorem digit_number {c : Char} (h : isDigit c = true) : c ∈ numberChars := by
  unfold isDigit at h
  simp only [Bool.and_eq_true, decide_eq_true_eq] at h
  have h1 : 48 ≤ c.toNat := h.1
  have h2 : c.toNat ≤ 57 := h.2
  have hc : c = Char.ofNat c.toNat := by simp
  rw [hc]
  have : ∀ k : Fin 10, Char.ofNat (48 + k) ∈ numberChars := by decide
  have := this ⟨c.toNat - 48, by omega⟩
  simpa [show 48 + (c.toNat - 48) = c.toNat by omega] using this

theorem octaveText_number (n : Int) : NumberText (octaveText n) := by
  have hd := (decimal_spec n.natAbs).2.1
  intro c hc
  unfold octaveText at hc
  split at hc
  · rcases List.mem_cons.mp hc with rfl | hc
    · decide
    · exact digit_number (hd c hc)
  · exact digit_number (hd c hc)

/-- The names that are written. -/
def outputNames : List Text := [
  "volume".toList, "amplitude".toList, "amp_veltrack".toList, "sample".toList, "key".toList, "lokey".toList, "hikey".toList, "lovel".toList,
  "hivel".toList, "offset".toList, "end".toList, "transpose".toList, "pan".toList, "trigger".toList, "loop_start".toList, "loop_end".toList,
  "loop_crossfade".toList, "loop_mode".toList, "ampeg_attack".toList, "ampeg_decay".toList, "ampeg_sustain".toList, "ampeg_release".toList,
  "seq_position".toList]

def OutputName (n : Text) : Prop :=
  n ∈ outputNames ∨ ∃ k : Nat, n = "on_locc".toList ++ decimal k ∨ n = "on_hicc".toList ++ decimal k

theorem lookup_mem {α : Type} {w : α} : ∀ {l : List (Text × α)} {k : Text}, l.lookup k = some w → (k, w) ∈ l := by
  intro l k
  induction l with
  | nil => intro h; simp at h
  | cons x l ih =>
    obtain ⟨k', w'⟩ := x
    intro h
    rw [List.lookup_cons] at h
    split at h
    · rename_i hk
      injection h with h
      rw [beq_iff_eq.mp hk, h]
      exact List.mem_cons_self
    · exact List.mem_cons_of_mem _ (ih h)

/-- A way that writes a name that is not about keys. -/
def otherOk : Way → Bool
  | .int m => decide (m ∈ outputNames ∧ m ∉ ["lokey".toList, "hikey".toList, "key".toList])
  | .real m => decide (m ∈ outputNames ∧ m ∉ ["lokey".toList, "hikey".toList, "key".toList])
  | .copy m => decide (m ∈ outputNames ∧ m ∉ ["lokey".toList, "hikey".toList, "key".toList])
  | _ => true

/-- The names in the table are among them. -/
def wayOk (k : Text) : Way → Bool
  | .int m => decide (m ∈ outputNames)
  | .real m => decide (m ∈ outputNames)
  | .copy m => decide ((k = "path".toList ∧ m = "sample".toList) ∨ (k = "trigger".toList ∧ m = "trigger".toList))
  | .cc m => decide (m = "on_locc".toList ∨ m = "on_hicc".toList)
  | _ => true

/-- What an attribute can write. -/
theorem convert_cases {R : Reals} {a : Text × Text} {n v : Text} (h : convertAttribute R a = some (n, v)) :
    OutputName n ∧
    ((n = "sample".toList ∧ (seen a.1).1 = "path".toList ∧ v = trim a.2) ∨
     (n = "trigger".toList ∧ (seen a.1).1 = "trigger".toList ∧ v = trim a.2) ∨
     (n = "loop_mode".toList ∧ (v = "loop_continuous".toList ∨ v = "no_loop".toList)) ∨
     (∃ k, v = octaveText k) ∨ R.plain (trim a.2) = some v ∨ R.frames (trim a.2) = some v ∨ R.percent (trim a.2) = some v) := by
  unfold convertAttribute at h
  obtain ⟨w, hw, h⟩ := Option.bind_eq_some_iff.mp h
  have hmem : ((seen a.1).1, w) ∈ ways := lookup_mem hw
  have ok : wayOk (seen a.1).1 w := by
    have : ∀ x ∈ ways, wayOk x.1 x.2 = true := by decide
    exact this _ hmem
  cases w with
  | int m =>
    have ok := of_decide_eq_true ok
    obtain ⟨k, _, e⟩ := Option.map_eq_some_iff.mp h
    injection e with e1 e2
    exact ⟨Or.inl (e1 ▸ ok), Or.inr (Or.inr (Or.inr (Or.inl ⟨k, e2.symm⟩)))⟩
  | real m =>
    have ok := of_decide_eq_true ok
    obtain ⟨t, ht, e⟩ := Option.map_eq_some_iff.mp h
    injection e with e1 e2
    exact ⟨Or.inl (e1 ▸ ok), Or.inr (Or.inr (Or.inr (Or.inr (Or.inl (e2 ▸ ht)))))⟩
  | copy m =>
    have ok := of_decide_eq_true ok
    injection h with h
    injection h with e1 e2
    rcases ok with ⟨o1, o2⟩ | ⟨o1, o2⟩
    · exact ⟨Or.inl (by rw [← e1, o2]; decide), Or.inl ⟨e1 ▸ o2, o1, e2.symm⟩⟩
    · exact ⟨Or.inl (by rw [← e1, o2]; decide), Or.inr (Or.inl ⟨e1 ▸ o2, o1, e2.symm⟩)⟩
  | gain =>
    obtain ⟨t, ht, e⟩ := Option.map_eq_some_iff.mp h
    injection e with e1 e2
    refine ⟨Or.inl ?_, Or.inr (Or.inr (Or.inr (Or.inr (Or.inl (e2 ▸ ht)))))⟩
    rw [← e1]
    split
    · decide
    · decide
  | cc m =>
    have ok := of_decide_eq_true ok
    obtain ⟨k, _, e⟩ := Option.map_eq_some_iff.mp h
    injection e with e1 e2
    refine ⟨Or.inr ⟨(seen a.1).2.headD 0, ?_⟩, Or.inr (Or.inr (Or.inr (Or.inl ⟨k, e2.symm⟩)))⟩
    rcases ok with rfl | rfl
    · exact Or.inl e1.symm
    · exact Or.inr e1.symm
  | crossfade =>
    obtain ⟨t, ht, e⟩ := Option.map_eq_some_iff.mp h
    injection e with e1 e2
    exact ⟨Or.inl (by rw [← e1]; decide), Or.inr (Or.inr (Or.inr (Or.inr (Or.inr (Or.inl (e2 ▸ ht))))))⟩
  | loop =>
    injection h with h
    injection h with e1 e2
    refine ⟨Or.inl (by rw [← e1]; decide), Or.inr (Or.inr (Or.inl ⟨e1.symm, ?_⟩))⟩
    rw [← e2]
    split
    · exact Or.inl rfl
    · exact Or.inr rfl
  | sustain =>
    obtain ⟨t, ht, e⟩ := Option.map_eq_some_iff.mp h
    injection e with e1 e2
    exact ⟨Or.inl (by rw [← e1]; decide), Or.inr (Or.inr (Or.inr (Or.inr (Or.inr (Or.inr (e2 ▸ ht))))))⟩

theorem outputName_ok {n : Text} (h : OutputName n) : IsName n ∧ n ≠ "base64data".toList := by
  rcases h with h | ⟨k, h⟩
  · have : ∀ n ∈ outputNames, n ≠ [] ∧ n.all isIdentChar = true ∧ n ≠ "base64data".toList := by decide
    obtain ⟨h1, h2, h3⟩ := this n h
    exact ⟨⟨h1, h2⟩, h3⟩
  · have hd : (decimal k).all isIdentChar = true := by
      rw [List.all_eq_true]
      intro c hc
      have : ∀ c ∈ numberChars, isDigit c = true → isIdentChar c = true := by decide
      have hcd := (decimal_spec k).2.1 c hc
      exact this c (digit_number hcd) hcd
    rcases h with rfl | rfl
    · refine ⟨⟨by simp, by rw [List.all_append, hd]; decide⟩, ?_⟩
      intro h
      have := congrArg List.head? h
      exact absurd this (by simp)
    · refine ⟨⟨by simp, by rw [List.all_append, hd]; decide⟩, ?_⟩
      intro h
      have := congrArg List.head? h
      exact absurd this (by simp)

/-- An element that may be printed on a line of its own. -/
def LineOk : Item → Prop
  | .header n => IsName n
  | .opcode n v => IsName n ∧ n ≠ "base64data".toList ∧ Quotable v

theorem itemOk_of {i : Item} (h : LineOk i) (rest : List (List Piece × Item)) (tail : List Piece)
    (hl : ∃ c ps, Parser.nextLayout rest tail = .blank c :: ps) : ItemOk rest tail i := by
  obtain ⟨c, qs, hl⟩ := hl
  cases i with
  | header n => exact h
  | opcode n v =>
    obtain ⟨h1, h2, q1, q2, q3, q4, q5, _⟩ := h
    refine ⟨h1, h2, q1, q2, q3, q4, q5, ?_, ?_⟩
    · intro _ p ps hp
      rw [hl] at hp
      injection hp with hp _
      exact ⟨c, hp.symm⟩
    · intro hp; rw [hl] at hp; cases hp

theorem lines_ok : ∀ (is : List Item), (∀ i ∈ is, LineOk i) → DocOk (is.map (fun j => ([.blank '\n'], j))) [.blank '\n'] := by
  intro is
  induction is with
  | nil => intro _; simp [DocOk, Piece.Ok]
  | cons i is ih =>
    intro h
    refine ⟨by simp [Piece.Ok], itemOk_of (h i (by simp)) _ _ ?_, ih (fun j hj => h j (List.mem_cons_of_mem _ hj))⟩
    cases is with
    | nil => exact ⟨_, _, rfl⟩
    | cons j is => exact ⟨_, _, rfl⟩

theorem sections_items : ∀ bs : List (Text × List (Text × Text)), sections (bs.flatMap itemsOf) = bs := by
  have skip : ∀ (os : List (Text × Text)) (rest : List Item), sections (os.map (fun o => Item.opcode o.1 o.2) ++ rest) = sections rest := by
    intro os
    induction os with
    | nil => intro rest; rfl
    | cons o os ih => intro rest; simpa [sections] using ih rest
  have take : ∀ (os : List (Text × Text)) (bs : List (Text × List (Text × Text))),
      ((os.map (fun o => Item.opcode o.1 o.2) ++ bs.flatMap itemsOf).takeWhile
        (fun i => match i with | .opcode _ _ => true | .header _ => false)).filterMap
      (fun i => match i with | .opcode a b => some (a, b) | .header _ => none) = os := by
    intro os bs
    induction os with
    | nil =>
      cases bs with
      | nil => rfl
      | cons b bs => simp [itemsOf]
    | cons o os ih => simpa using ih
  intro bs
  induction bs with
  | nil => rfl
  | cons b bs ih =>
    obtain ⟨n, os⟩ := b
    rw [List.flatMap_cons]
    simp only [itemsOf, List.cons_append, sections]
    rw [skip, ih]
    exact congrArg (fun z => (n, z) :: bs) (take os bs)

theorem name_byte {n : Text} (h : IsName n) : eofByte ∉ n := by
  intro hc
  have := List.all_eq_true.mp h.2 _ hc
  exact absurd this (by decide)

theorem line_byte {i : Item} (h : LineOk i) : eofByte ∉ i.text := by
  cases i with
  | header n =>
    have := name_byte h
    have h1 : eofByte ≠ '<' := by decide
    have h2 : eofByte ≠ '>' := by decide
    simp [Item.text, this, h1, h2]
  | opcode n v =>
    have h0 := name_byte h.1
    have h1 : eofByte ≠ '=' := by decide
    have h2 := h.2.2.2.2.2.2.2
    simp [Item.text, h0, h1, h2]

theorem lines_byte {is : List Item} (h : ∀ i ∈ is, LineOk i) : eofByte ∉ lines is := by
  intro hc
  obtain ⟨i, hi, hc⟩ := List.mem_flatMap.mp hc
  rcases List.mem_append.mp hc with hc | hc
  · exact line_byte (h i hi) hc
  · exact absurd hc (by decide)

/-- The first line with an image. -/
theorem image_print (image : Text) (is : List Item) :
    print (([], .header "control".toList) :: ([.blank ' '], .opcode "image".toList image) :: is.map (fun j => ([.blank '\n'], j))) [.blank '\n'] =
      "<control> image=".toList ++ image ++ ['\n'] ++ lines is := by
  rw [print, lines_print]
  simp [layout, Piece.text, lines, Item.text]

theorem global_lines (R : Reals) (p : Preset) : "<global>\n".toList ++ emitText R p.groups ++ p.parts.flatMap (groupText R) =
    lines ((("global".toList, opcodesOf R p.groups) ::
      p.parts.flatMap (fun g => ("group".toList, opcodesOf R g.1) :: g.2.map (fun s => ("region".toList, opcodesOf R s)))).flatMap itemsOf) := by
  rw [parts_lines, List.flatMap_cons, lines_append, ← header_line]
  rfl

/-- The elements of a preset, without the image, may be printed. -/
theorem preset_lines_ok (R : Reals) (hR : R.Sound) (p : Preset) (hq : p.Quotable) : ∀ i ∈ (("global".toList, opcodesOf R p.groups) ::
      p.parts.flatMap (fun g => ("group".toList, opcodesOf R g.1) :: g.2.map (fun s => ("region".toList, opcodesOf R s)))).flatMap itemsOf, LineOk i := by
  have fixed : ∀ t ∈ ["loop_continuous".toList, "no_loop".toList], Quotable t := by
    intro t ht
    have no : ∀ t ∈ ["loop_continuous".toList, "no_loop".toList], '$' ∉ t ∧ '\r' ∉ t ∧ '\n' ∉ t ∧ '/' ∉ t ∧ '<' ∉ t ∧ '=' ∉ t ∧ '#' ∉ t ∧
      t.getLast? ≠ some ' ' ∧ t.getLast? ≠ some '\t' ∧ eofByte ∉ t := by decide
    obtain ⟨n1, n2, n3, n4, n5, n6, n7, n8, n9, n10⟩ := no t ht
    refine ⟨n1, n2, n3, ?_, ValueText.simple n5 n6 n7 n8 n9, n10⟩
    rintro a d b rfl
    exact absurd (by simp) n4
  have node : ∀ n : Node, (∀ a ∈ n, a ∈ attributesOf p) → ∀ o ∈ opcodesOf R n, LineOk (.opcode o.1 o.2) := by
    intro n hn o ho
    obtain ⟨a, ha, hc⟩ := List.mem_filterMap.mp ho
    obtain ⟨hname, hval⟩ := convert_cases (n := o.1) (v := o.2) hc
    refine ⟨(outputName_ok hname).1, (outputName_ok hname).2, ?_⟩
    rcases hval with ⟨_, h1, h2⟩ | ⟨_, h1, h2⟩ | ⟨_, h⟩ | ⟨k, h⟩ | h | h | h
    · rw [h2]; exact hq.2 a (hn a ha) (Or.inl h1)
    · rw [h2]; exact hq.2 a (hn a ha) (Or.inr h1)
    · rcases h with h | h <;> rw [h] <;> exact fixed _ (by simp)
    · rw [h]; exact numberText_quotable (octaveText_number k)
    · exact numberText_quotable (hR _ _ (Or.inl h))
    · exact numberText_quotable (hR _ _ (Or.inr (Or.inl h)))
    · exact numberText_quotable (hR _ _ (Or.inr (Or.inr h)))
  have block : ∀ name : Text, IsName name → ∀ n : Node, (∀ a ∈ n, a ∈ attributesOf p) → ∀ i ∈ itemsOf (name, opcodesOf R n), LineOk i := by
    intro name hname n hn i hi
    rcases List.mem_cons.mp hi with rfl | hi
    · exact hname
    · obtain ⟨o, ho, rfl⟩ := List.mem_map.mp hi
      exact node n hn o ho
  intro i hi
  obtain ⟨b, hb, hi⟩ := List.mem_flatMap.mp hi
  rcases List.mem_cons.mp hb with rfl | hb
  · exact block _ ⟨by decide, by decide⟩ _ (fun a ha => List.mem_append_left _ ha) i hi
  · obtain ⟨g, hg, hb⟩ := List.mem_flatMap.mp hb
    rcases List.mem_cons.mp hb with rfl | hb
    · exact block _ ⟨by decide, by decide⟩ _ (fun a ha => List.mem_append_right _ (List.mem_flatMap.mpr ⟨g, hg, List.mem_append_left _ ha⟩)) i hi
    · obtain ⟨s, hs, rfl⟩ := List.mem_map.mp hb
      exact block _ ⟨by decide, by decide⟩ _ (fun a ha => List.mem_append_right _ (List.mem_flatMap.mpr ⟨g, hg,
        List.mem_append_right _ (List.mem_flatten.mpr ⟨s, hs, ha⟩)⟩)) i hi

/-- **C115.** For every preset whose copied texts can be quoted, the text that the importer writes is read without errors or warnings as the
structure of the preset: one `global` block for the outer element, every group as a `group` block followed by one `region` block for each of its
samples, in order, each with the opcodes of its own attributes and nothing else. Whatever order the sort leaves: the nodes are taken
as sorted. -/
theorem preset_import_partial (R : Reals) (hR : R.Sound) (p : Preset) (hq : p.Quotable) (files : Text → Option Text) (resolve : Text → Text)
    (maxDepth : Nat) (guard : Bool) (k : Nat) (external : Parser.Defs) (path : Text) (signed : Bool) (hm : maxDepth ≠ 0) :
    (∃ s, Parses (envWith files resolve maxDepth guard (k + 1)) external path signed (presetText R p) s) ∧
    ∀ s, Parses (envWith files resolve maxDepth guard (k + 1)) external path signed (presetText R p) s →
      s.events.filterMap blockOf = blocksOf R p ∧ s.events.any isProblem = false := by
  have hlines := preset_lines_ok R hR p hq
  have hglobal := global_lines R p
  obtain ⟨is, his⟩ : ∃ is, is = (("global".toList, opcodesOf R p.groups) ::
      p.parts.flatMap (fun g => ("group".toList, opcodesOf R g.1) :: g.2.map (fun s => ("region".toList, opcodesOf R s)))).flatMap itemsOf := ⟨_, rfl⟩
  rw [← his] at hlines hglobal
  obtain ⟨doc, hdoc, htext, hitems, hhead⟩ : ∃ doc, DocOk doc [.blank '\n'] ∧ print doc [.blank '\n'] = presetText R p ∧
      sections (doc.map Prod.snd) = blocksOf R p ∧ ∃ ps n l, doc = (ps, .header n) :: l := by
    by_cases hi : p.image = []
    · obtain ⟨i, rest, hcons⟩ : ∃ i rest, is = Item.header i :: rest := ⟨_, _, his⟩
      refine ⟨([], .header i) :: rest.map (fun j => ([.blank '\n'], j)), ?_, ?_, ?_, [], _, _, rfl⟩
      · have := lines_ok is hlines
        rw [hcons] at this
        refine ⟨by simp, this.2.1, this.2.2⟩
      · rw [lines_print, ← hcons, ← hglobal]
        simp [presetText, hi, layout]
      · have : (([], Item.header i) :: rest.map (fun j => ([Piece.blank '\n'], j))).map Prod.snd = is := by
          rw [hcons]; simp [Function.comp_def]
        rw [this, his, sections_items]
        simp [blocksOf, hi]
    · refine ⟨([], .header "control".toList) :: ([.blank ' '], .opcode "image".toList p.image) :: is.map (fun j => ([.blank '\n'], j)),
        ?_, ?_, ?_, [], _, _, rfl⟩
      · refine ⟨by simp, (⟨by decide, by decide⟩ : IsName "control".toList), by simp [Piece.Ok], ?_, lines_ok is hlines⟩
        refine itemOk_of (i := .opcode "image".toList p.image) ⟨⟨by decide, by decide⟩, by decide, hq.1⟩ _ _ ?_
        cases is with
        | nil => exact ⟨_, _, rfl⟩
        | cons j is => exact ⟨_, _, rfl⟩
      · rw [image_print, ← hglobal]
        simp [presetText, hi]
      · have : ((([], Item.header "control".toList) :: ([Piece.blank ' '], Item.opcode "image".toList p.image) ::
            is.map (fun j => ([Piece.blank '\n'], j))).map Prod.snd : List Item) = (blocksOf R p).flatMap itemsOf := by
          simp [blocksOf, hi, his, itemsOf, Function.comp_def]
        rw [this, sections_items]
  have hbyte : signed = true → eofByte ∉ print doc [.blank '\n'] := by
    intro _ hc
    rw [htext, presetText, List.append_assoc, List.append_assoc, ← List.append_assoc "<global>\n".toList, hglobal, List.mem_append] at hc
    rcases hc with hc | hc
    · split at hc
      · cases hc
      · rcases List.mem_append.mp hc with hc | hc
        · rcases List.mem_append.mp hc with hc | hc
          · exact absurd hc (by decide)
          · exact hq.1.2.2.2.2.2 hc
        · exact absurd hc (by decide)
    · exact lines_byte hlines hc
  have := Parser.print_parsed files resolve maxDepth guard k external path signed doc [.blank '\n'] hm hbyte hdoc (Or.inr hhead)
  rw [htext] at this
  exact ⟨this.1, fun s hs => ⟨by rw [(this.2 s hs).2.1, hitems], (this.2 s hs).2.2⟩⟩

end Verif.Import
