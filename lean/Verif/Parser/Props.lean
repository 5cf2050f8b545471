import Verif.Parser.Turn

/-! C25 and C28: the parser finishes, and its positions are exact. -/
namespace Verif.Parser

/-! ### C25: the parser finishes -/

theorem run_add (E : Env) (a b : Nat) (s s' : PState) (h : run E a s = some s') : run E (a + b) s = run E b s' := by
  induction a generalizing s with
  | zero => simp only [run, Option.some.injEq] at h; rw [h, Nat.zero_add]
  | succ a ih =>
    rw [show a + 1 + b = (a + b) + 1 by omega]
    simp only [run] at h ⊢
    cases hs : step E s with
    | none => rw [hs] at h; simp at h
    | some s1 => rw [hs] at h; exact ih s1 h

theorem run_one (E : Env) (s : PState) : run E 1 s = step E s := by
  simp only [run]; cases step E s <;> rfl

/-- The innermost file is read to its end, unless an expansion does not finish: induction on the room left for included files, then
on the size of the file. -/
theorem file_ends (E : Env) (m : Nat) : ∀ (z : Nat) (s : PState) (r : Reader) (rest : List Reader), s.included = r :: rest → r.size ≤ z →
    rest.length + 1 + m = E.maxDepth → ∃ n, run E n s = none ∨ ∃ s', run E n s = some s' ∧ s'.included = rest := by
  induction m with
  | zero =>
    intro z
    induction z with
    | zero =>
      intro s r rest hi hz hm
      refine ⟨1, ?_⟩
      rw [run_one]
      unfold step; rw [hi]
      simp only
      cases ht : turn E s r rest with
      | none => left; rfl
      | some s' =>
        have := (turn_outcome E s s' r rest ht).shape
        right; refine ⟨s', rfl, ?_⟩
        generalize s'.included = l at this
        cases this with
        | over => rfl
        | moved r' t h1 h2 => omega
        | included r' t p tx h1 h2 h3 h4 => omega
    | succ z ih =>
      intro s r rest hi hz hm
      cases ht : turn E s r rest with
      | none => refine ⟨1, ?_⟩; rw [run_one]; unfold step; rw [hi]; left; exact ht
      | some s1 =>
        have h1 : run E 1 s = some s1 := by rw [run_one]; unfold step; rw [hi]; exact ht
        have hsh := (turn_outcome E s s1 r rest ht).shape
        generalize hl : s1.included = l at hsh
        cases hsh with
        | over => exact ⟨1, Or.inr ⟨s1, h1, hl⟩⟩
        | moved r' t k1 k2 =>
          obtain ⟨n, hn⟩ := ih s1 r' rest hl (by omega) hm
          exact ⟨1 + n, by rw [run_add E 1 n s s1 h1]; exact hn⟩
        | included r' t p tx k1 k2 k3 k4 => omega
  | succ m ihm =>
    intro z
    induction z with
    | zero =>
      intro s r rest hi hz hm
      refine ⟨1, ?_⟩
      rw [run_one]
      unfold step; rw [hi]
      simp only
      cases ht : turn E s r rest with
      | none => left; rfl
      | some s' =>
        have := (turn_outcome E s s' r rest ht).shape
        right; refine ⟨s', rfl, ?_⟩
        generalize s'.included = l at this
        cases this with
        | over => rfl
        | moved r' t h1 h2 => omega
        | included r' t p tx h1 h2 h3 h4 => omega
    | succ z ih =>
      intro s r rest hi hz hm
      cases ht : turn E s r rest with
      | none => refine ⟨1, ?_⟩; rw [run_one]; unfold step; rw [hi]; left; exact ht
      | some s1 =>
        have h1 : run E 1 s = some s1 := by rw [run_one]; unfold step; rw [hi]; exact ht
        have hsh := (turn_outcome E s s1 r rest ht).shape
        generalize hl : s1.included = l at hsh
        cases hsh with
        | over => exact ⟨1, Or.inr ⟨s1, h1, hl⟩⟩
        | moved r' t k1 k2 =>
          obtain ⟨n, hn⟩ := ih s1 r' rest hl (by omega) hm
          exact ⟨1 + n, by rw [run_add E 1 n s s1 h1]; exact hn⟩
        | included r' t p tx k1 k2 k3 k4 =>
          obtain ⟨n, hn⟩ := ihm _ s1 (newReader p false tx) (r' :: rest) hl (Nat.le_refl _) (by simp only [List.length_cons]; omega)
          rcases hn with hn | ⟨s2, hn, hi2⟩
          · exact ⟨1 + n, Or.inl (by rw [run_add E 1 n s s1 h1]; exact hn)⟩
          · obtain ⟨k, hk⟩ := ih s2 r' rest hi2 (by omega) hm
            refine ⟨1 + (n + k), ?_⟩
            rw [run_add E 1 _ s s1 h1, run_add E n k s1 s2 hn]
            exact hk

theorem value_some {E : Env} {s : PState} (hE : ∀ t, E.expand s.defs t ≠ none) (a b c : Loc) (nm : Text) (r : Reader) (rest : List Reader) :
    processValue E s a b c nm r rest ≠ none := by
  unfold processValue
  rcases extractToEol r with ⟨line, r1⟩
  simp only
  cases hx : E.expand s.defs (splitValue (line.length + 1) line).1 with
  | none => exact absurd hx (hE _)
  | some p => exact Option.some_ne_none _

theorem include_some {E : Env} {s : PState} (hE : ∀ t, E.expand s.defs t ≠ none) (a : Loc) (r : Reader) (rest : List Reader) :
    processInclude E s a r rest ≠ none := by
  unfold processInclude
  split
  · exact Option.some_ne_none _
  · simp only
    split
    · exact Option.some_ne_none _
    · split
      · rename_i hx; exact absurd hx (hE _)
      · exact Option.some_ne_none _

theorem directive_some {E : Env} {s : PState} (hE : ∀ t, E.expand s.defs t ≠ none) (r : Reader) (rest : List Reader) :
    processDirective E s r rest ≠ none := by
  unfold processDirective
  split
  · split
    split
    · exact Option.some_ne_none _
    · split
      · exact include_some hE _ _ _
      · exact Option.some_ne_none _
  · exact Option.some_ne_none _

theorem opcode_some {E : Env} {s : PState} (hE : ∀ t, E.expand s.defs t ≠ none) (r : Reader) (rest : List Reader) :
    processOpcode E s r rest ≠ none := by
  unfold processOpcode
  split
  · exact Option.some_ne_none _
  · split
    · split
      · rename_i hx; exact absurd hx (hE _)
      · split
        · split
          · exact Option.some_ne_none _
          · apply value_some; exact hE
        · exact Option.some_ne_none _
    · exact Option.some_ne_none _

theorem turn_some {E : Env} {s : PState} (hE : ∀ t, E.expand s.defs t ≠ none) (r : Reader) (rest : List Reader) : turn E s r rest ≠ none := by
  unfold turn
  split
  split
  · exact Option.some_ne_none _
  · split
    · apply directive_some; exact hE
    · split
      · exact Option.some_ne_none _
      · apply opcode_some; exact hE

theorem run_some {E : Env} {I : PState → Prop} (hI : ∀ s s', I s → step E s = some s' → I s') (hE : ∀ s, I s → ∀ t, E.expand s.defs t ≠ none)
    (n : Nat) : ∀ s, I s → run E n s ≠ none := by
  induction n with
  | zero => intro s _; exact Option.some_ne_none _
  | succ n ih =>
    intro s hs
    unfold run
    cases hst : step E s with
    | none =>
      unfold step at hst
      split at hst
      · exact absurd hst (Option.some_ne_none _)
      · exact absurd hst (turn_some (hE s hs) _ _)
    | some s' => exact ih s' (hI s s' hs hst)

/-- A parse finishes, if some invariant guarantees that every expansion does. -/
theorem parses_of_inv {E : Env} {I : PState → Prop} (hI : ∀ s s', I s → step E s = some s' → I s') (hE : ∀ s, I s → ∀ t, E.expand s.defs t ≠ none)
    (external : Defs) (path : Text) (signed : Bool) (text : Text) (h0 : I (start E external path signed text)) :
    ∃ s, Parses E external path signed text s := by
  by_cases hd : E.maxDepth = 0
  · refine ⟨_, 0, _, rfl, ?_, rfl⟩
    unfold start; rw [if_pos hd]
  · have hi : (start E external path signed text).included = newReader path signed text :: [] := by unfold start; rw [if_neg hd]
    obtain ⟨n, hn⟩ := file_ends E (E.maxDepth - 1) _ _ _ [] hi (Nat.le_refl _) (by simp only [List.length_nil]; omega)
    rcases hn with hn | ⟨s', hn, hs⟩
    · exact absurd hn (run_some hI hE _ _ h0)
    · exact ⟨_, n, s', hn, hs, rfl⟩

/-- **C25.** For every text, whatever the files on the disk (of any number and size, including one another in any
way), the settings and the external definitions: the parse finishes, if every expansion of variables does. -/
theorem parse_terminates_partial (E : Env) (hE : ∀ defs t, E.expand defs t ≠ none) (external : Defs) (path : Text) (signed : Bool) (text : Text) :
    ∃ s, Parses E external path signed text s :=
  parses_of_inv (I := fun _ => True) (fun _ _ _ _ => trivial) (fun _ _ t => hE _ t) external path signed text trivial

/-! ### C28: positions -/

/-- Line and column after some characters: how many line feeds there are, and how many characters there are after the last one. -/
def lineCol (a : Text) : Nat × Nat := (a.count '\n', (a.reverse.takeWhile (fun c => c != '\n')).length)

/-- The location after the characters `a` of a file. -/
def locOf (path a : Text) : Loc := ⟨path, (lineCol a).1, (lineCol a).2⟩

theorem position_lineCol (a : Text) : ((position a).1, (position a).2.1) = lineCol a := by
  induction a using snocInd with
  | hnil => rfl
  | hsnoc xs x ih =>
    rw [position_snoc]
    simp only [lineCol, Prod.mk.injEq] at ih ⊢
    by_cases hx : x = '\n'
    · subst hx; simp [ih.1]
    · simp [hx, ih.1, ih.2, List.count_append]

theorem Pos.loc {d : Text} {r : Reader} (h : Pos d r) : r.loc = locOf r.path d := by
  have h1 := h.1
  have h2 := position_lineCol d
  rw [← h1] at h2
  simp only at h2
  unfold Reader.loc locOf
  rw [← h2]

/-- An event is where the text says so. -/
def Located (E : Env) (path text : Text) : Event → Prop
  | .header start stop name =>
    ∃ a b, text = a ++ ('<' :: name ++ ['>']) ++ b ∧ start = locOf path a ∧ stop = locOf path (a ++ ('<' :: name ++ ['>']))
  | .opcode nameStart nameStop valueStart valueStop name value =>
    ∃ a rawName rawValue b, text = a ++ rawName ++ ['='] ++ rawValue ++ b ∧
      nameStart = locOf path a ∧ nameStop = locOf path (a ++ rawName) ∧
      valueStart = locOf path (a ++ rawName ++ ['=']) ∧ valueStop = locOf path (a ++ rawName ++ ['='] ++ rawValue) ∧
      (∃ defs w, E.expand defs rawName = some (name, w)) ∧
      ((∃ defs w, E.expand defs rawValue = some (value, w)) ∨ (name = "base64data".toList ∧ value = rawValue))
  | .error start stop _ => ∃ a s b, text = a ++ s ++ b ∧ start = locOf path a ∧ stop = locOf path (a ++ s)
  | .warning start stop _ => ∃ a s b, text = a ++ s ++ b ∧ start = locOf path a ∧ stop = locOf path (a ++ s)
  | .block _ _ => True

theorem Span.located {r : Reader} {st sp : Loc} {s d : Text} (h : Span r st sp s) (hp : Pos d r) :
    ∃ a b, d ++ r.left = a ++ s ++ b ∧ st = locOf r.path a ∧ sp = locOf r.path (a ++ s) := by
  obtain ⟨sa, ra, rb, h1, h2, rfl, rfl⟩ := h
  have p1 := h1.pos d hp
  have p2 := h2.pos _ p1
  refine ⟨d ++ sa, rb.left, ?_, ?_, ?_⟩
  · rw [h1.left, h2.left]; simp
  · rw [p1.loc, h1.path]
  · rw [p2.loc, h2.path, h1.path]

theorem Ev.located {E : Env} {r : Reader} {d : Text} {ev : Event} (h : Ev E r ev) (hp : Pos d r) : Located E r.path (d ++ r.left) ev := by
  cases ev with
  | header st sp name => exact Span.located h hp
  | opcode ns ne vs ve name value =>
    obtain ⟨sa, ra, rb, rc, rd, raw, v, h1, h2, h3, h4, e1, e2, e3, e4, k⟩ := h
    have p1 := h1.pos d hp
    have p2 := h2.pos _ p1
    have p3 := h3.pos _ p2
    have p4 := h4.pos _ p3
    refine ⟨d ++ sa, raw, v, rd.left, ?_, ?_, ?_, ?_, ?_, k⟩
    · rw [h1.left, h2.left, h3.left, h4.left]; simp
    · rw [e1, p1.loc, h1.path]
    · rw [e2, p2.loc, h2.path, h1.path]
    · rw [e3, p3.loc, h3.path, h2.path, h1.path]
    · rw [e4, p4.loc, h4.path, h3.path, h2.path, h1.path]
  | error st sp m =>
    obtain ⟨s, h⟩ := h
    obtain ⟨a, b, k⟩ := Span.located h hp
    exact ⟨a, s, b, k⟩
  | warning st sp m =>
    obtain ⟨s, h⟩ := h
    obtain ⟨a, b, k⟩ := Span.located h hp
    exact ⟨a, s, b, k⟩
  | block a b => trivial

/-- The main text as its positions see it: in a string, the bytes 255 are not counted. -/
def mainText (signed : Bool) (text : Text) : Text := if signed then text.filter (fun c => c != eofByte) else text

/-- The texts that are read: the main one, and the files. -/
def Source (E : Env) (path : Text) (main : Text) (p t : Text) : Prop := (p = path ∧ t = main) ∨ E.files p = some t

/-- A reader is somewhere in a text. -/
def Within (E : Env) (path main : Text) (r : Reader) : Prop := ∃ t d, Source E path main r.path t ∧ Pos d r ∧ d ++ r.left = t

theorem Within.adv {E : Env} {path main : Text} {r r1 : Reader} {s : Text} (h : Within E path main r) (k : Adv r s r1) : Within E path main r1 := by
  obtain ⟨t, d, h1, h2, h3⟩ := h
  refine ⟨t, d ++ s, by rw [k.path]; exact h1, k.pos d h2, ?_⟩
  rw [← h3, k.left, List.append_assoc]

theorem Within.fresh {E : Env} {path main p t : Text} (h : E.files p = some t) : Within E path main (newReader p false t) :=
  ⟨t, [], Or.inr h, ⟨rfl, rfl⟩, rfl⟩

/-- What holds at every moment of a parse. -/
def Good (E : Env) (path main : Text) (s : PState) : Prop :=
  (∀ r ∈ s.included, Within E path main r) ∧ ∀ ev ∈ s.events, ∃ p t, Source E path main p t ∧ Located E p t ev

theorem step_good {E : Env} {path main : Text} {s s' : PState} (h : Good E path main s) (hs : step E s = some s') : Good E path main s' := by
  unfold step at hs
  split at hs
  · rw [← Option.some.inj hs]; exact h
  · rename_i r rest hi
    have ho := turn_outcome E s s' r rest hs
    have hr : Within E path main r := h.1 r (by rw [hi]; simp)
    have hrest : ∀ q ∈ rest, Within E path main q := fun q hq => h.1 q (by rw [hi]; simp [hq])
    constructor
    · have hsh := ho.shape
      generalize s'.included = l at hsh
      cases hsh with
      | over => exact hrest
      | moved r' t k1 k2 =>
        intro q hq
        rcases List.mem_cons.mp hq with rfl | hq
        · exact hr.adv k1
        · exact hrest q hq
      | included r' t p tx k1 k2 k3 k4 =>
        intro q hq
        rcases List.mem_cons.mp hq with rfl | hq
        · exact Within.fresh k3
        · rcases List.mem_cons.mp hq with rfl | hq
          · exact hr.adv k1
          · exact hrest q hq
    · obtain ⟨evs, e1, e2⟩ := ho.events
      obtain ⟨t, d, k1, k2, k3⟩ := hr
      rw [e1]
      intro ev hev
      rcases List.mem_append.mp hev with hev | hev
      · exact h.2 ev hev
      · exact ⟨r.path, t, k1, k3 ▸ (e2 ev hev).located k2⟩

theorem run_good {E : Env} {path main : Text} (n : Nat) : ∀ {s s' : PState}, Good E path main s → run E n s = some s' → Good E path main s' := by
  induction n with
  | zero => intro s s' h hr; rw [← Option.some.inj hr]; exact h
  | succ n ih =>
    intro s s' h hr
    unfold run at hr
    split at hr
    · simp at hr
    · rename_i s1 hs; exact ih (step_good h hs) hr

theorem start_good (E : Env) (external : Defs) (path : Text) (signed : Bool) (text : Text) :
    Good E path (mainText signed text) (start E external path signed text) := by
  unfold start
  split
  · refine ⟨by simp, ?_⟩
    intro ev hev
    simp only [List.mem_singleton] at hev
    subst hev
    exact ⟨path, mainText signed text, Or.inl ⟨rfl, rfl⟩, [], [], _, rfl, rfl, rfl⟩
  · refine ⟨?_, by simp⟩
    intro r hr
    simp only [List.mem_singleton] at hr
    subst hr
    exact ⟨mainText signed text, [], Or.inl ⟨rfl, rfl⟩, ⟨rfl, rfl⟩, rfl⟩

/-- **C28.** Every header, opcode, value, error and warning reported by a parse is reported where it is in its file: the
characters between the two positions are those of the header, of the opcode's name, of its value. -/
theorem events_located (E : Env) (external : Defs) (path : Text) (signed : Bool) (text : Text) (s : PState)
    (h : Parses E external path signed text s) :
    ∀ ev ∈ s.events, ∃ p t, Source E path (mainText signed text) p t ∧ Located E p t ev := by
  obtain ⟨n, s', hr, _, rfl⟩ := h
  have hg := run_good n (start_good E external path signed text) hr
  obtain ⟨evs, e1, e2⟩ := flush_events s'
  rw [e1]
  intro ev hev
  rcases List.mem_append.mp hev with hev | hev
  · exact hg.2 ev hev
  · obtain ⟨a, b, rfl⟩ := e2 ev hev
    exact ⟨path, _, Or.inl ⟨rfl, rfl⟩, trivial⟩

/-- Calls on a reader: reading, looking ahead, putting back as many of the last characters read. -/
inductive Call
  | get | peek | putBack (count : Nat)

/-- A reader, and the characters it has given and not taken back. -/
def call (x : Text × Reader) : Call → Text × Reader
  | .get => (x.1 ++ (getChar x.2).1.toList, (getChar x.2).2)
  | .peek => (x.1, (peekChar x.2).2)
  | .putBack k => (x.1.take (x.1.length - k), putBackChars x.2 (x.1.drop (x.1.length - k)))

/-- **C28, the reader.** After any calls, the reader is at the line and column of the text it has given, nothing was lost or
repeated, and no position was taken out of range. -/
theorem reader_position (path : Text) (signed : Bool) (text : Text) (calls : List Call) :
    let x := calls.foldl call ([], newReader path signed text)
    x.2.loc = locOf path x.1 ∧ x.1 ++ x.2.left = mainText signed text ∧ x.2.bad = false := by
  have h : ∀ (calls : List Call) (x : Text × Reader), Adv (newReader path signed text) x.1 x.2 →
      Adv (newReader path signed text) (calls.foldl call x).1 (calls.foldl call x).2 := by
    intro calls
    induction calls with
    | nil => intro x hx; exact hx
    | cons c cs ih =>
      intro x hx
      apply ih
      cases c with
      | get => exact hx.trans (getChar_adv x.2)
      | peek => exact hx.trans_nil (peekChar_adv x.2)
      | putBack k =>
        refine Adv.putBack (s := x.1.take (x.1.length - k)) ?_
        rw [List.take_append_drop]
        exact hx
  have ha := h calls ([], newReader path signed text) (Adv.refl _)
  have hp := ha.pos [] ⟨rfl, rfl⟩
  refine ⟨?_, ha.left.symm, hp.2⟩
  rw [hp.loc, ha.path]
  rfl

/-! ### A concrete parse -/

/-- One file, `x`, with a definition and an opcode in it. -/
def sampleEnv : Env :=
  envWith (fun p => if p = "x".toList then some "#define $K 60\ncutoff=$K".toList else none) id 32 false 4

def sampleText : Text := "<region> // note\n#include \"x\" sample=a b.wav key=$K".toList

/-- The parse finishes, and its last opcode is on the second line of the main text, columns 28 to 31, value in 32 to 34. -/
example : ((run sampleEnv 8 (start sampleEnv [] "m".toList true sampleText)).map (fun s => (s.included, s.events.drop 1))) =
    some ([], [.opcode ⟨"x".toList, 1, 0⟩ ⟨"x".toList, 1, 6⟩ ⟨"x".toList, 1, 7⟩ ⟨"x".toList, 1, 9⟩ "cutoff".toList "60".toList,
      .opcode ⟨"m".toList, 1, 13⟩ ⟨"m".toList, 1, 19⟩ ⟨"m".toList, 1, 20⟩ ⟨"m".toList, 1, 27⟩ "sample".toList "a b.wav".toList,
      .opcode ⟨"m".toList, 1, 28⟩ ⟨"m".toList, 1, 31⟩ ⟨"m".toList, 1, 32⟩ ⟨"m".toList, 1, 34⟩ "key".toList "60".toList]) := by decide +kernel

/-- Reading past a line and putting back over its end. -/
example : ([Call.get, .get, .get, .get, .peek, .putBack 3].foldl call ([], newReader [] false "a\nbcd".toList)).2.loc = ⟨[], 0, 1⟩ := by decide +kernel

end Verif.Parser
