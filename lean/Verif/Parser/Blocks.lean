import Verif.Parser.Props

/-! # The two views a listener has of a file: single calls and blocks (C138) -/
namespace Verif.Parser

/-! ### Specification -/

/-- The opcodes reported before the next header. -/
def opcodesThen : List Event → List (Text × Text)
  | [] => []
  | .header .. :: _ => []
  | .opcode _ _ _ _ n v :: es => (n, v) :: opcodesThen es
  | _ :: es => opcodesThen es

/-- What the single calls report: every header with the opcodes reported after it, up to the next header. -/
def grouped : List Event → List (Text × List (Text × Text))
  | [] => []
  | .header _ _ h :: es => (h, opcodesThen es) :: grouped es
  | _ :: es => grouped es

/-- The blocks that were reported, in order. -/
def blocks (es : List Event) : List (Text × List (Text × Text)) :=
  es.filterMap fun | .block h o => some (h, o) | _ => none

/-- A name of letters, digits and underscores, at least one. -/
def ProperName (s : Text) : Prop := s ≠ [] ∧ ∀ c ∈ s, c = '_' ∨ ('a' ≤ c ∧ c ≤ 'z') ∨ ('A' ≤ c ∧ c ≤ 'Z') ∨ ('0' ≤ c ∧ c ≤ '9')

/-- A call about a header or an opcode has a proper name. -/
def Named : Event → Prop
  | .header _ _ h => ProperName h
  | .opcode _ _ _ _ n _ => ProperName n
  | .block h o => ProperName h ∧ ∀ p ∈ o, ProperName p.1
  | _ => True

/-- The call is about a header. -/
def Event.isHeader : Event → Bool
  | .header .. => true
  | _ => false

/-- The call is about an opcode other than `base64data`. -/
def Event.isPlainOpcode : Event → Bool
  | .opcode _ _ _ _ n _ => decide (n ≠ "base64data".toList)
  | _ => false

/-- The call is the warning about an opcode outside of all headers. -/
def Event.isOrphanWarning : Event → Bool
  | .warning _ _ .noHeader => true
  | _ => false

/-! ### Lists of calls -/

/-- An error, or a warning other than the one about headers. -/
def Event.plain : Event → Bool
  | .error .. => true
  | .warning _ _ m => decide (m ≠ .noHeader)
  | _ => false

theorem isIdentifier_iff {s : Text} : isIdentifier s = true ↔ ProperName s := by
  unfold isIdentifier ProperName
  cases s with
  | nil => simp
  | cons c t =>
    have hc : ∀ c, isIdentChar c = true ↔ (c = '_' ∨ ('a' ≤ c ∧ c ≤ 'z') ∨ ('A' ≤ c ∧ c ≤ 'Z') ∨ ('0' ≤ c ∧ c ≤ '9')) := by
      intro c
      simp [isIdentChar, or_assoc]
    simp only [List.isEmpty_cons, Bool.not_false, Bool.true_and, List.all_eq_true, ne_eq, reduceCtorEq, not_false_eq_true, true_and]
    exact forall₂_congr fun c _ => hc c

theorem grouped_append_plain (es fs : List Event) (h : ∀ f ∈ fs, f.isHeader = false ∧ opcodesThen [f] = []) :
    grouped (es ++ fs) = grouped es ∧ opcodesThen (es ++ fs) = opcodesThen es := by
  induction es with
  | nil =>
    simp only [List.nil_append]
    induction fs with
    | nil => simp
    | cons f fs ih =>
      have hf := h f (by simp)
      have hi := ih (fun g hg => h g (by simp [hg]))
      cases f <;> simp_all [grouped, opcodesThen, Event.isHeader]
  | cons e es ih =>
    cases e <;> simp_all [grouped, opcodesThen]

theorem grouped_append_header (es : List Event) (a b : Loc) (h : Text) : grouped (es ++ [.header a b h]) = grouped es ++ [(h, [])] ∧
    opcodesThen (es ++ [.header a b h]) = opcodesThen es := by
  induction es with
  | nil => simp [grouped, opcodesThen]
  | cons e es ih => cases e <;> simp_all [grouped, opcodesThen]

theorem grouped_nil_iff (es : List Event) : grouped es = [] ↔ ∀ e ∈ es, e.isHeader = false := by
  induction es with
  | nil => simp [grouped]
  | cons e es ih => cases e <;> simp_all [grouped, Event.isHeader]

theorem opcodesThen_append (es : List Event) (a b c d : Loc) (n v : Text) :
    opcodesThen (es ++ [.opcode a b c d n v]) = if grouped es = [] then opcodesThen es ++ [(n, v)] else opcodesThen es := by
  induction es with
  | nil => simp [grouped, opcodesThen]
  | cons e es ih =>
    cases e with
    | opcode =>
      simp only [grouped, opcodesThen, List.cons_append, ih]
      by_cases hg : grouped es = [] <;> simp [hg]
    | header => simp [grouped, opcodesThen]
    | error => exact ih
    | warning => exact ih
    | block => exact ih

theorem grouped_append_opcode (es : List Event) (a b c d : Loc) (n v : Text) (g : List (Text × List (Text × Text))) (h : Text) (o : List (Text × Text))
    (he : grouped es = g ++ [(h, o)]) : grouped (es ++ [.opcode a b c d n v]) = g ++ [(h, o ++ [(n, v)])] := by
  induction es generalizing g with
  | nil => simp [grouped] at he
  | cons e es ih =>
    cases e with
    | header x y h' =>
      simp only [grouped, List.cons_append] at he ⊢
      cases g with
      | nil =>
        have h2 := List.cons.inj he
        have hn : grouped es = [] := h2.2
        rw [opcodesThen_append, if_pos hn]
        have : grouped (es ++ [.opcode a b c d n v]) = [] := by
          rw [grouped_nil_iff] at hn ⊢
          intro e he
          rcases List.mem_append.mp he with he | he
          · exact hn e he
          · rw [List.mem_singleton.mp he]; rfl
        rw [this]
        have h3 := h2.1
        injection h3 with h4 h5
        rw [h4, h5]
        rfl
      | cons p g =>
        have h2 := List.cons.inj he
        have hn : grouped es ≠ [] := by rw [h2.2]; simp
        rw [opcodesThen_append, if_neg hn, h2.1, ih g h2.2]
        rfl
    | opcode => exact ih g he
    | error => exact ih g he
    | warning => exact ih g he
    | block => exact ih g he

/-- The calls before the first header. -/
def preamble (es : List Event) : List Event := es.takeWhile fun e => !e.isHeader

theorem preamble_self {es : List Event} (h : grouped es = []) : preamble es = es := by
  rw [grouped_nil_iff] at h
  unfold preamble
  induction es with
  | nil => rfl
  | cons e es ih =>
    rw [List.takeWhile_cons, if_pos (by rw [h e (by simp)]; rfl), ih (fun f hf => h f (by simp [hf]))]

theorem preamble_append (es fs : List Event) : preamble (es ++ fs) = if grouped es = [] then es ++ preamble fs else preamble es := by
  unfold preamble
  induction es with
  | nil => simp [grouped]
  | cons e es ih =>
    cases e <;> simp_all [grouped, Event.isHeader]
    all_goals split <;> rfl

/-! ### The invariant -/

/-- How the state and the calls so far hang together. -/
structure Kept (s : PState) : Prop where
  groups : grouped s.events = blocks s.events ++ (match s.header with | some h => [(h, s.opcodes)] | none => [])
  named : ∀ e ∈ s.events, Named e
  opsNamed : ∀ p ∈ s.opcodes, ProperName p.1
  headNamed : ∀ h, s.header = some h → ProperName h
  none_yet : s.header = none → grouped s.events = []
  orphans : s.events.countP Event.isOrphanWarning = (preamble s.events).countP Event.isPlainOpcode

theorem Kept.of_same {s s' : PState} (k : Kept s) (h1 : s'.events = s.events) (h2 : s'.header = s.header) (h3 : s'.opcodes = s.opcodes) : Kept s' := by
  obtain ⟨a, b, c, d, e, f⟩ := k
  exact ⟨by rw [h1, h2, h3]; exact a, by rw [h1]; exact b, by rw [h3]; exact c, by rw [h2]; exact d, by rw [h1, h2]; exact e, by rw [h1]; exact f⟩

theorem plain_props {f : Event} (h : f.plain = true) : f.isHeader = false ∧ opcodesThen [f] = [] ∧ Named f ∧
    f.isOrphanWarning = false ∧ f.isPlainOpcode = false ∧ blocks [f] = [] := by
  cases f with
  | header => simp [Event.plain] at h
  | opcode => simp [Event.plain] at h
  | block => simp [Event.plain] at h
  | error => simp [Event.isHeader, opcodesThen, Named, Event.isOrphanWarning, Event.isPlainOpcode, blocks]
  | warning a b m => cases m <;> simp_all [Event.plain, Event.isHeader, opcodesThen, Named, Event.isOrphanWarning, Event.isPlainOpcode, blocks]

theorem blocks_append (es fs : List Event) : blocks (es ++ fs) = blocks es ++ blocks fs := by simp [blocks]

theorem blocks_plain {fs : List Event} (h : ∀ f ∈ fs, f.plain = true) : blocks fs = [] := by
  induction fs with
  | nil => rfl
  | cons f fs ih =>
    have := blocks_append [f] fs
    simp only [List.cons_append, List.nil_append] at this
    rw [this, (plain_props (h f (by simp))).2.2.2.2.2, ih (fun g hg => h g (by simp [hg]))]
    rfl

theorem countP_plain {p : Event → Bool} {fs : List Event} (h : ∀ f ∈ fs, p f = false) : fs.countP p = 0 := by
  rw [List.countP_eq_zero]
  intro a ha hb
  rw [h a ha] at hb
  cases hb

theorem preamble_orphans (es fs : List Event) (h : ∀ f ∈ fs, f.isPlainOpcode = false) :
    (preamble (es ++ fs)).countP Event.isPlainOpcode = (preamble es).countP Event.isPlainOpcode := by
  rw [preamble_append]
  split
  · rename_i hg
    have h1 : preamble es = es := preamble_self hg
    have h2 : (preamble fs).countP Event.isPlainOpcode = 0 :=
      countP_plain fun f hf => h f ((List.takeWhile_sublist _).subset hf)
    rw [List.countP_append, h1, h2]
    rfl
  · rfl

/-- Errors and warnings leave the rest alone. -/
theorem Kept.emit {s s' : PState} (k : Kept s) (fs : List Event) (hf : ∀ f ∈ fs, f.plain = true) (h1 : s'.events = s.events ++ fs)
    (h2 : s'.header = s.header) (h3 : s'.opcodes = s.opcodes) : Kept s' := by
  obtain ⟨a, b, c, d, e, f⟩ := k
  have hg := (grouped_append_plain s.events fs (fun g hg => ⟨(plain_props (hf g hg)).1, (plain_props (hf g hg)).2.1⟩)).1
  refine ⟨?_, ?_, by rw [h3]; exact c, by rw [h2]; exact d, ?_, ?_⟩
  · rw [h1, h2, h3, hg, blocks_append, blocks_plain hf, List.append_nil, a]
  · intro ev hev
    rw [h1] at hev
    rcases List.mem_append.mp hev with hev | hev
    · exact b ev hev
    · exact (plain_props (hf ev hev)).2.2.1
  · intro hn
    rw [h1, hg]
    exact e (h2 ▸ hn)
  · rw [h1, List.countP_append, countP_plain (fun g hg => (plain_props (hf g hg)).2.2.2.1),
      preamble_orphans _ _ (fun g hg => (plain_props (hf g hg)).2.2.2.2.1)]
    exact f

/-- An opcode; among the warnings before it is one about headers exactly when there is no header, unless it is `base64data`. -/
theorem Kept.opcode {s s' : PState} (k : Kept s) {a b c d : Loc} {n v : Text} (hn : ProperName n) (w : List Event)
    (hw1 : ∀ f ∈ w, f.isHeader = false ∧ opcodesThen [f] = [] ∧ Named f ∧ f.isPlainOpcode = false ∧ blocks [f] = [])
    (hw2 : w.countP Event.isOrphanWarning = if n ≠ "base64data".toList ∧ s.header = none then 1 else 0)
    (h1 : s'.events = s.events ++ w ++ [.opcode a b c d n v])
    (h2 : s'.header = s.header) (h3 : s'.opcodes = s.opcodes ++ [(n, v)]) : Kept s' := by
  obtain ⟨ka, kb, kc, kd, ke, kf⟩ := k
  have hw3 : blocks w = [] := by
    clear hw2 h1
    induction w with
    | nil => rfl
    | cons f fs ih =>
      have := blocks_append [f] fs
      simp only [List.cons_append, List.nil_append] at this
      rw [this, (hw1 f (by simp)).2.2.2.2, ih (fun g hg => hw1 g (by simp [hg]))]
      rfl
  have hg := (grouped_append_plain s.events w (fun g hg => ⟨(hw1 g hg).1, (hw1 g hg).2.1⟩)).1
  refine ⟨?_, ?_, ?_, by rw [h2]; exact kd, ?_, ?_⟩
  · rw [h1, h2, h3, blocks_append, blocks_append, hw3]
    cases hh : s.header with
    | none =>
      have := ke hh
      rw [this] at hg
      have h0 : grouped (s.events ++ w ++ [.opcode a b c d n v]) = [] := by
        rw [grouped_nil_iff] at hg ⊢
        intro e he
        rcases List.mem_append.mp he with he | he
        · exact hg e he
        · rw [List.mem_singleton.mp he]; rfl
      rw [h0]
      rw [this, hh] at ka
      simpa [blocks] using ka
    | some h =>
      rw [hh] at ka
      rw [grouped_append_opcode _ a b c d n v (blocks s.events) h s.opcodes (by rw [hg, ka])]
      simp [blocks]
  · intro ev hev
    rw [h1, List.append_assoc] at hev
    rcases List.mem_append.mp hev with hev | hev
    · exact kb ev hev
    · rcases List.mem_append.mp hev with hev | hev
      · exact (hw1 ev hev).2.2.1
      · rw [List.mem_singleton.mp hev]; exact hn
  · intro p hp
    rw [h3] at hp
    rcases List.mem_append.mp hp with hp | hp
    · exact kc p hp
    · rw [List.mem_singleton.mp hp]; exact hn
  · intro hh
    rw [h2] at hh
    have := ke hh
    rw [h1, grouped_nil_iff]
    rw [this, grouped_nil_iff] at hg
    intro e he
    rcases List.mem_append.mp he with he | he
    · exact hg e he
    · rw [List.mem_singleton.mp he]; rfl
  · have e1 : List.countP Event.isOrphanWarning [Event.opcode a b c d n v] = 0 := rfl
    have e2 : preamble [Event.opcode a b c d n v] = [Event.opcode a b c d n v] := rfl
    have e3 : w.countP Event.isPlainOpcode = 0 := countP_plain fun f hf => (hw1 f hf).2.2.2.1
    rw [h1, List.countP_append, List.countP_append, preamble_append, hg, e1, hw2]
    by_cases hh : s.header = none
    · have h0 := ke hh
      rw [preamble_self h0] at kf
      rw [if_pos h0, List.countP_append, List.countP_append, kf, e2, e3]
      by_cases hb : n = "base64data".toList
      · rw [if_neg (fun x => x.1 hb)]
        have e5 : List.countP Event.isPlainOpcode [Event.opcode a b c d n v] = 0 := by
          have : Event.isPlainOpcode (.opcode a b c d n v) = false := decide_eq_false (fun x => x hb)
          rw [List.countP_singleton, this]
          rfl
        rw [e5]
      · rw [if_pos ⟨hb, hh⟩]
        have e5 : List.countP Event.isPlainOpcode [Event.opcode a b c d n v] = 1 := by
          have : Event.isPlainOpcode (.opcode a b c d n v) = true := decide_eq_true hb
          rw [List.countP_singleton, if_pos this]
        rw [e5]
    · have h0 : grouped s.events ≠ [] := by
        obtain ⟨h, hh'⟩ := Option.ne_none_iff_exists'.mp hh
        rw [ka, hh']
        simp
      rw [if_neg h0, if_neg (fun x => hh x.2), preamble_append, if_neg h0, kf]
      rfl

theorem Kept.flush {s : PState} (k : Kept s) : grouped (flush s).events = blocks (flush s).events ∧ (∀ e ∈ (flush s).events, Named e) ∧
    (flush s).opcodes = [] ∧ (flush s).events.countP Event.isOrphanWarning = (preamble (flush s).events).countP Event.isPlainOpcode := by
  obtain ⟨ka, kb, kc, kd, ke, kf⟩ := k
  unfold Parser.flush
  cases hh : s.header with
  | none =>
    rw [hh] at ka
    exact ⟨by simpa using ka, kb, rfl, kf⟩
  | some h =>
    rw [hh] at ka
    simp only
    refine ⟨?_, ?_, trivial, ?_⟩
    · rw [(grouped_append_plain s.events [.block h s.opcodes] (fun g hg => by rw [List.mem_singleton.mp hg]; exact ⟨rfl, rfl⟩)).1, ka, blocks_append]
      rfl
    · intro e he
      rcases List.mem_append.mp he with he | he
      · exact kb e he
      · rw [List.mem_singleton.mp he]; exact ⟨kd h hh, kc⟩
    · rw [List.countP_append, preamble_orphans _ _ (fun g hg => by rw [List.mem_singleton.mp hg]; rfl), kf]
      rfl

/-- A header. -/
theorem Kept.header {s s' : PState} (k : Kept s) {a b : Loc} {n : Text} (hn : ProperName n) (h1 : s'.events = (Parser.flush s).events ++ [.header a b n])
    (h2 : s'.header = some n) (h3 : s'.opcodes = []) : Kept s' := by
  obtain ⟨a1, a2, a3, a4⟩ := k.flush
  refine ⟨?_, ?_, by rw [h3]; simp, ?_, by rw [h2]; simp, ?_⟩
  · rw [h1, h2, h3, (grouped_append_header _ _ _ _).1, a1, blocks_append]
    simp [blocks]
  · intro e he
    rw [h1] at he
    rcases List.mem_append.mp he with he | he
    · exact a2 e he
    · rw [List.mem_singleton.mp he]; exact hn
  · intro h hh
    rw [h2] at hh
    rw [← Option.some.inj hh]
    exact hn
  · rw [h1, List.countP_append, preamble_orphans _ _ (fun g hg => by rw [List.mem_singleton.mp hg]; rfl), a4]
    rfl

/-! ### The parser -/

theorem skipBlanks_plain (n : Nat) : ∀ r, ∀ ev ∈ (skipBlanksLoop n r).1, ev.plain = true := by
  induction n with
  | zero => intro r; simp [skipBlanksLoop]
  | succ n ih =>
    intro r
    simp only [skipBlanksLoop]
    rcases skipChars isBlank r with ⟨_ | k, r1⟩
    · simp only
      have hc : ∀ ev ∈ (skipComment r1).2.1, ev.plain = true := by
        unfold skipComment
        split
        · simp
        · simp
        · split
          · intro ev hev; rw [List.mem_singleton.mp hev]; rfl
          · split
            · simp
            · intro ev hev; rw [List.mem_singleton.mp hev]; rfl
      rcases hs : skipComment r1 with ⟨_ | _, ev, r2⟩
      · simp
      · rw [hs] at hc
        intro e he
        rcases List.mem_append.mp he with he | he
        · exact hc e he
        · exact ih _ e he
    · exact ih r1

/-- The expansion warns about variables only. -/
def WarnsPlainly (E : Env) : Prop := ∀ defs t v w, E.expand defs t = some (v, w) → ∀ m ∈ w, m ≠ Msg.noHeader

theorem warn_plain {w : List Msg} (h : ∀ m ∈ w, m ≠ Msg.noHeader) (a b : Loc) : ∀ f ∈ w.map (Event.warning a b), f.plain = true := by
  intro f hf
  obtain ⟨m, hm, rfl⟩ := List.mem_map.mp hf
  simpa [Event.plain] using h m hm

theorem includeFile_kept {E : Env} {s : PState} (k : Kept s) (p : Text) (a b : Loc) : Kept (includeFile E s p a b) := by
  unfold includeFile
  split
  · exact k
  · split
    · exact k.emit [_] (fun f hf => List.mem_singleton.mp hf ▸ rfl) rfl rfl rfl
    · split
      · exact k.emit [_] (fun f hf => List.mem_singleton.mp hf ▸ rfl) rfl rfl rfl
      · exact k.of_same rfl rfl rfl

theorem include_kept {E : Env} (hE : WarnsPlainly E) {s s' : PState} (k : Kept s) {l : Loc} {r : Reader} {rest : List Reader}
    (h : processInclude E s l r rest = some s') : Kept s' := by
  unfold processInclude at h
  split at h
  · rw [← Option.some.inj h]
    exact k.emit _ (by simp [Event.plain]) rfl rfl rfl
  · simp only at h
    split at h
    · rw [← Option.some.inj h]
      exact k.emit _ (by simp [Event.plain]) rfl rfl rfl
    · split at h
      · simp at h
      · rename_i p w hw
        rw [← Option.some.inj h]
        apply includeFile_kept
        exact k.emit _ (warn_plain (hE _ _ _ _ hw) _ _) rfl rfl rfl

theorem define_kept {s : PState} (k : Kept s) {l : Loc} {r : Reader} {rest : List Reader} : Kept (processDefine s l r rest) := by
  unfold processDefine
  split
  · exact k.emit _ (by simp [Event.plain]) rfl rfl rfl
  · split
    · exact k.emit _ (by simp [Event.plain]) rfl rfl rfl
    · exact k.of_same rfl rfl rfl

theorem directive_kept {E : Env} (hE : WarnsPlainly E) {s s' : PState} (k : Kept s) {r : Reader} {rest : List Reader}
    (h : processDirective E s r rest = some s') : Kept s' := by
  unfold processDirective at h
  split at h
  · simp only at h
    split at h
    · rw [← Option.some.inj h]; exact define_kept k
    · split at h
      · exact include_kept hE k h
      · rw [← Option.some.inj h]
        exact k.emit _ (by simp [Event.plain]) rfl rfl rfl
  · rw [← Option.some.inj h]
    exact k.emit _ (by simp [Event.plain]) rfl rfl rfl

theorem header_kept {s : PState} (k : Kept s) {r : Reader} {rest : List Reader} : Kept (processHeader s r rest) := by
  unfold processHeader
  split
  · simp only
    split
    · split
      · rename_i hid
        have hfl : ∀ l, (flush { s with included := l }).opcodes = [] := by intro l; unfold Parser.flush; split <;> rfl
        exact k.header (isIdentifier_iff.mp hid) rfl rfl (hfl _)
      · exact k.emit _ (by simp [Event.plain]) rfl rfl rfl
    · exact k.emit _ (by simp [Event.plain]) rfl rfl rfl
  · exact k.emit _ (by simp [Event.plain]) rfl rfl rfl

theorem value_kept {E : Env} (hE : WarnsPlainly E) {s s' : PState} (k : Kept s) {a b c : Loc} {n : Text} (hn : ProperName n) (hb : n ≠ "base64data".toList)
    {r : Reader} {rest : List Reader} (h : processValue E s a b c n r rest = some s') : Kept s' := by
  unfold processValue at h
  rcases hl : extractToEol r with ⟨line, r1⟩
  rw [hl] at h
  simp only at h
  cases hx : E.expand s.defs (splitValue (line.length + 1) line).1 with
  | none => rw [hx] at h; simp at h
  | some p =>
    rw [hx] at h
    simp only at h
    generalize putBackChars r1 _ = r2 at h
    obtain ⟨v, ms⟩ := p
    have hp := warn_plain (hE _ _ _ _ hx) c r2.loc
    simp only at h
    generalize ms.map (Event.warning c r2.loc) = W at h hp
    rw [← Option.some.inj h]
    refine k.opcode hn ((if s.header = none then [.warning a r2.loc .noHeader] else []) ++ W) ?_ ?_ (by simp only [List.append_assoc]; rfl) rfl rfl
    · intro f hf
      rcases List.mem_append.mp hf with hf | hf
      · split at hf
        · rw [List.mem_singleton.mp hf]
          exact ⟨rfl, rfl, trivial, rfl, rfl⟩
        · cases hf
      · have := plain_props (hp f hf)
        exact ⟨this.1, this.2.1, this.2.2.1, this.2.2.2.2.1, this.2.2.2.2.2⟩
    · rw [List.countP_append, countP_plain (fun g hg => (plain_props (hp g hg)).2.2.2.1)]
      by_cases hh : s.header = none
      · rw [if_pos hh, if_pos ⟨hb, hh⟩]; rfl
      · rw [if_neg hh, if_neg (fun x => hh x.2)]; rfl

theorem opcode_kept {E : Env} (hE : WarnsPlainly E) {s s' : PState} (k : Kept s) {r : Reader} {rest : List Reader}
    (h : processOpcode E s r rest = some s') : Kept s' := by
  unfold processOpcode at h
  split at h
  · rw [← Option.some.inj h]
    exact k.emit _ (by simp [Event.plain]) rfl rfl rfl
  · rename_i raw r1 _ _
    split at h
    · split at h
      · simp at h
      · rename_i name w hw
        have hp := warn_plain (hE _ _ _ _ hw) r.loc r1.loc
        have k1 := k.emit (s' := { s with events := s.events ++ w.map (.warning r.loc r1.loc) }) _ hp rfl rfl rfl
        split at h
        · rename_i hid
          have hn := isIdentifier_iff.mp hid
          split at h
          · rename_i hb
            rw [← Option.some.inj h]
            unfold processData
            exact k1.opcode hn [] (by simp) (by rw [if_neg (fun x => x.1 hb)]; rfl) (by rw [List.append_nil]) rfl rfl
          · rename_i hb
            exact value_kept hE k1 hn hb h
        · rw [← Option.some.inj h]
          exact k1.emit [_] (fun f hf => List.mem_singleton.mp hf ▸ rfl) rfl rfl rfl
    · rw [← Option.some.inj h]
      exact k.emit _ (by simp [Event.plain]) rfl rfl rfl

theorem step_kept {E : Env} (hE : WarnsPlainly E) {s s' : PState} (k : Kept s) (h : step E s = some s') : Kept s' := by
  unfold step at h
  split at h
  · rw [← Option.some.inj h]; exact k
  · rename_i r rest _
    unfold turn at h
    have hb := skipBlanks_plain (r.size + 1) r
    rcases hg : skipBlanks r with ⟨ev, r1⟩
    have hev : ∀ e ∈ ev, e.plain = true := by
      intro e he
      have e1 : (skipBlanksLoop (r.size + 1) r).1 = ev := by rw [show skipBlanksLoop (r.size + 1) r = skipBlanks r from rfl, hg]
      exact hb e (by rw [e1]; exact he)
    rw [hg] at h
    simp only at h
    split at h
    · rw [← Option.some.inj h]
      exact k.emit ev hev rfl rfl rfl
    · rename_i c r2 _
      have k1 := k.emit (s' := { s with events := s.events ++ ev, included := r2 :: rest }) ev hev rfl rfl rfl
      split at h
      · exact directive_kept hE k1 h
      · split at h
        · rw [← Option.some.inj h]; exact header_kept k1
        · exact opcode_kept hE k1 h

theorem run_kept {E : Env} (hE : WarnsPlainly E) (n : Nat) : ∀ {s s' : PState}, Kept s → run E n s = some s' → Kept s' := by
  induction n with
  | zero => intro s s' k h; rw [← Option.some.inj h]; exact k
  | succ n ih =>
    intro s s' k h
    simp only [run] at h
    split at h
    · cases h
    · rename_i s1 h1
      exact ih (step_kept hE k h1) h

theorem start_kept (E : Env) (external : Defs) (path : Text) (signed : Bool) (text : Text) : Kept (start E external path signed text) := by
  unfold start
  split
  · refine ⟨rfl, ?_, by simp, by simp, fun _ => rfl, rfl⟩
    intro e he
    rw [List.mem_singleton.mp he]; trivial
  · exact ⟨rfl, by simp, by simp, by simp, fun _ => rfl, rfl⟩

theorem expandPass_plain (defs : Defs) (n : Nat) : ∀ t, ∀ m ∈ (expandPass defs n t).2.2, m ≠ Msg.noHeader := by
  induction n with
  | zero => intro t; simp [expandPass]
  | succ n ih =>
    intro t
    cases t with
    | nil => simp [expandPass]
    | cons c cs =>
      simp only [expandPass]
      split
      · split
        · intro m hm
          rcases List.mem_cons.mp hm with rfl | hm
          · simp
          · exact ih _ m hm
        · intro m hm
          rcases List.mem_cons.mp hm with rfl | hm
          · simp
          · exact ih _ m hm
        · exact ih _
      · exact ih _

theorem expandVars_plain (defs : Defs) (k : Nat) : ∀ t v w, expandVars defs k t = some (v, w) → ∀ m ∈ w, m ≠ Msg.noHeader := by
  induction k with
  | zero => intro t v w h; cases h
  | succ k ih =>
    intro t v w h
    simp only [expandVars] at h
    have hp := expandPass_plain defs (t.length + 1) t
    rcases he : expandPass defs (t.length + 1) t with ⟨dst, _ | c, w1⟩
    · rw [he] at h hp
      cases h
      exact hp
    · rw [he] at h hp
      simp only at h
      split at h
      · cases h
      · rename_i d w' hd
        cases h
        intro m hm
        rcases List.mem_append.mp hm with hm | hm
        · exact hp m hm
        · exact ih _ _ _ hd m hm

theorem envWith_plain (files : Text → Option Text) (resolve : Text → Text) (maxDepth : Nat) (guard : Bool) (k : Nat) :
    WarnsPlainly (envWith files resolve maxDepth guard k) := fun defs t v w h => expandVars_plain defs k t v w h

theorem parses_kept {E : Env} (hE : WarnsPlainly E) {external : Defs} {path : Text} {signed : Bool} {text : Text} {s : PState}
    (h : Parses E external path signed text s) : ∃ s', Kept s' ∧ s = flush s' := by
  obtain ⟨n, s', h1, -, h3⟩ := h
  exact ⟨s', run_kept hE n (start_kept _ _ _ _ _) h1, h3⟩

/-! ### The theorems -/

/-- **C138, blocks.** Whatever the text, the included files and the definitions: the blocks that are reported are exactly the headers that
were reported, in order, each with the opcodes that were reported between it and the next header, in order. -/
theorem blocks_agree (files : Text → Option Text) (resolve : Text → Text) (maxDepth : Nat) (guard : Bool) (k : Nat) (external : Defs)
    (path : Text) (signed : Bool) (text : Text) (s : PState) (h : Parses (envWith files resolve maxDepth guard k) external path signed text s) :
    blocks s.events = grouped s.events := by
  obtain ⟨s', k, rfl⟩ := parses_kept (envWith_plain _ _ _ _ _) h
  exact k.flush.1.symm

/-- **C138, names.** Every header and every opcode that is reported, alone or in a block, has a name of letters, digits and underscores,
never an empty one. -/
theorem names_proper (files : Text → Option Text) (resolve : Text → Text) (maxDepth : Nat) (guard : Bool) (k : Nat) (external : Defs)
    (path : Text) (signed : Bool) (text : Text) (s : PState) (h : Parses (envWith files resolve maxDepth guard k) external path signed text s) :
    ∀ e ∈ s.events, Named e := by
  obtain ⟨s', k, rfl⟩ := parses_kept (envWith_plain _ _ _ _ _) h
  exact k.flush.2.1

/-- **C138, opcodes outside of headers.** There are as many warnings about opcodes outside of all headers as there are such opcodes, those
called `base64data` left out. -/
theorem orphans_warned_partial (files : Text → Option Text) (resolve : Text → Text) (maxDepth : Nat) (guard : Bool) (k : Nat) (external : Defs)
    (path : Text) (signed : Bool) (text : Text) (s : PState) (h : Parses (envWith files resolve maxDepth guard k) external path signed text s) :
    s.events.countP Event.isOrphanWarning = (preamble s.events).countP Event.isPlainOpcode := by
  obtain ⟨s', k, rfl⟩ := parses_kept (envWith_plain _ _ _ _ _) h
  exact k.flush.2.2.2

/-! ### Cases -/

/-- An environment without files. -/
def aloneEnv : Env := envWith (fun _ => none) id 32 false 4

/-- The blocks that are reported for a text without includes. -/
def blocksOf (text : String) : Option (List (String × List (String × String))) :=
  (run aloneEnv 16 (start aloneEnv [] [] false text.toList)).bind fun s =>
    if s.included = [] then some ((blocks (flush s).events).map fun b => (String.ofList b.1, b.2.map fun o => (String.ofList o.1, String.ofList o.2)))
    else none

example : blocksOf "a=1\n<group> key=60\n<region> sample=a b.wav lokey=1 <region>" =
    some [("group", [("key", "60")]), ("region", [("sample", "a b.wav"), ("lokey", "1")]), ("region", [])] := by decide +kernel

/-- C138 is violated for `base64data`: outside of all headers it is dropped without a warning. -/
theorem orphan_data_violated : ∃ s, Parses aloneEnv [] [] false "base64data=AAAA".toList s ∧
    (∃ a b c d v, Event.opcode a b c d "base64data".toList v ∈ s.events) ∧ blocks s.events = [] ∧
    ∀ e ∈ s.events, e.isOrphanWarning = false :=
  ⟨_, ⟨4, _, rfl, by decide +kernel, rfl⟩, ⟨⟨[], 0, 0⟩, ⟨[], 0, 10⟩, ⟨[], 0, 11⟩, ⟨[], 0, 15⟩, "AAAA".toList, by decide +kernel⟩,
    by decide +kernel, by decide +kernel⟩

/-- What follows a header that is spelled wrongly belongs to the block before. -/
theorem wrong_header_violated : blocksOf "<region> sample=a.wav\n<re gion>\nsample=b.wav" =
    some [("region", [("sample", "a.wav"), ("sample", "b.wav")])] := by decide +kernel

end Verif.Parser
