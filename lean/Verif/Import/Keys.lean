import Verif.Import.Preset
import Verif.Layer.Model

/-! Key ranges and round robins of imported DecentSampler presets (C115). -/
namespace Verif.Import
open Verif.Opcode (Spec trim isSpace isDigit decimal octaveText decimal_spec readLeadingInt leadingInt atoi_octave readInt readIntOr transformInt checkBounds)
open Verif.Loader (Header Block seen seenFrom Op Region sfz settings parseOpcode parseKind parseCC parseLfo parseEnvelope readKey keySpec loKeySpec hiKeySpec kinds)
open Verif.Range (R setStart setEnd)
open Verif.Parser (ValueText eofByte)

/-- Numbers are read back. -/
theorem readLeading_octave (n : Int) (h : Opcode.int64Min ≤ n ∧ n ≤ Opcode.int64Max) : readLeadingInt (octaveText n) = some n := by
  have hd := (decimal_spec n.natAbs).2
  have hall : ∀ s : Text, (∀ c ∈ s, isDigit c = true) → s.takeWhile isDigit = s := fun s hs => List.takeWhile_eq_self_iff.mpr hs
  have : leadingInt (octaveText n) = octaveText n := by
    unfold octaveText
    split
    · simp [leadingInt, hall _ hd.1]
    · unfold leadingInt
      split
      · rename_i t he
        exact absurd (hd.1 '+' (by rw [he]; simp)) (by decide)
      · rename_i t he
        exact absurd (hd.1 '-' (by rw [he]; simp)) (by decide)
      · exact hall _ hd.1
  rw [readLeadingInt, this]
  exact atoi_octave n _ _ h (by decide)

theorem readInt_key {spec : Spec Int} {n : Nat} (hn : n ≤ 127) (h1 : spec.lo = 0) (h2 : spec.hi = 127) :
    readInt 0 255 spec (octaveText n) = some (some (n : Int)) := by
  have hr : readLeadingInt (octaveText n) = some (n : Int) := readLeading_octave n (by unfold Opcode.int64Min Opcode.int64Max; omega)
  unfold readInt
  rw [hr]
  have hc : checkBounds spec (n : Int) = none := by
    unfold checkBounds
    rw [if_neg (by rw [h2]; omega), if_neg (by rw [h1]; omega)]
  have : min (max (n : Int) 0) 255 = n := by omega
  simp only [transformInt, hc, this]

/-- Opcodes other than these leave the keys of a region alone. -/
theorem parse_frame {other : Op → Bool} {r r' : Region} {o : Op} {b : Bool} (h : parseOpcode other r o = some (r', b))
    (h1 : (seen o.name).1 ∉ ["lokey".toList, "hikey".toList, "key".toList, "pitch_keycenter".toList]) : r'.keys = r.keys ∧ r'.keycenter = r.keycenter := by
  have cc : ∀ {r r' : Region} {t : Text} {ps : List Nat} {g : Loader.Guard} {b : Bool}, parseCC r t ps g = some (r', b) →
      r'.keys = r.keys ∧ r'.keycenter = r.keycenter := by
    intro r r' t ps g b h
    unfold parseCC at h
    split at h
    · cases h
    · split at h
      · cases h; exact ⟨rfl, rfl⟩
      · cases g <;> simp only at h <;> split at h <;> cases h <;> exact ⟨rfl, rfl⟩
  unfold parseOpcode at h
  simp only at h
  split at h
  · rename_i k hk
    obtain ⟨r1, hr1, e⟩ := Option.map_eq_some_iff.mp h
    injection e with e _
    subst e
    have hne : k ≠ .lokey ∧ k ≠ .hikey ∧ k ≠ .key ∧ k ≠ .keycenter := by
      have hmem : ∀ x ∈ kinds, x.1 ∉ ["lokey".toList, "hikey".toList, "key".toList, "pitch_keycenter".toList] →
          x.2 ≠ .lokey ∧ x.2 ≠ .hikey ∧ x.2 ≠ .key ∧ x.2 ≠ .keycenter := by decide
      have : ∀ (l : List (Text × Loader.Kind)) (t : Text), l.lookup t = some k → (t, k) ∈ l := by
        intro l t
        induction l with
        | nil => intro h; simp at h
        | cons x l ih =>
          obtain ⟨k', w'⟩ := x
          intro h
          rw [List.lookup_cons] at h
          split at h
          · rename_i hk
            injection h with h
            rw [beq_iff_eq.mp hk, h]
            exact List.mem_cons_self
          · exact List.mem_cons_of_mem _ (ih h)
      exact hmem _ (this _ _ hk) h1
    obtain ⟨n1, n2, n3, n4⟩ := hne
    cases k <;> simp only [parseKind, ne_eq, not_true_eq_false, reduceCtorEq] at hr1 n1 n2 n3 n4
    all_goals first
      | (obtain ⟨x, _, e⟩ := Option.map_eq_some_iff.mp hr1; subst e; exact ⟨rfl, rfl⟩)
      | (split at hr1
         · cases hr1; exact ⟨rfl, rfl⟩
         · obtain ⟨x, _, e⟩ := Option.map_eq_some_iff.mp hr1; subst e; exact ⟨rfl, rfl⟩)
  · split at h
    · unfold parseLfo at h
      split at h
      · cases h
      · split at h
        · cases h; exact ⟨rfl, rfl⟩
        · split at h
          · have t := cc h; exact ⟨t.1, t.2⟩
          · cases h; exact ⟨rfl, rfl⟩
    · split at h
      · unfold parseEnvelope at h
        split at h
        · cases h
        · split at h
          · cases h; exact ⟨rfl, rfl⟩
          · simp only at h
            split at h
            · split at h
              · cases h
              · split at h <;> cases h <;> exact ⟨rfl, rfl⟩
            · split at h
              · cases h; exact ⟨rfl, rfl⟩
              · split at h
                · have t := cc h; exact ⟨t.1, t.2⟩
                · cases h; exact ⟨rfl, rfl⟩
      · split at h
        · exact cc h
        · cases h; exact ⟨rfl, rfl⟩

theorem parse_lokey (other : Op → Bool) (r : Region) (n : Nat) (hn : n ≤ 127) :
    parseOpcode other r ⟨"lokey".toList, octaveText n⟩ = some ({ r with keys := ⟨n, r.keys.stop⟩ }, true) := by
  have hs : (seen "lokey".toList).1 = "lokey".toList := by decide +kernel
  have hk : kinds.lookup "lokey".toList = some .lokey := by decide
  simp only [parseOpcode, hs, hk, parseKind, readKey, readIntOr, readInt_key (spec := loKeySpec) hn rfl rfl]
  simp [setStart]

theorem parse_hikey (other : Op → Bool) (r : Region) (n : Nat) (hn : n ≤ 127) :
    parseOpcode other r ⟨"hikey".toList, octaveText n⟩ = some ({ r with onNote := true, keys := ⟨r.keys.start, n⟩ }, true) := by
  have hs : (seen "hikey".toList).1 = "hikey".toList := by decide +kernel
  have hk : kinds.lookup "hikey".toList = some .hikey := by decide
  simp only [parseOpcode, hs, hk, parseKind, Loader.readKey?, readInt_key (spec := hiKeySpec) hn rfl rfl]
  simp [setEnd]

theorem parse_key (other : Op → Bool) (r : Region) (n : Nat) (hn : n ≤ 127) :
    parseOpcode other r ⟨"key".toList, octaveText n⟩ = some ({ r with onNote := true, keys := ⟨n, n⟩, keycenter := n }, true) := by
  have hs : (seen "key".toList).1 = "key".toList := by decide +kernel
  have hk : kinds.lookup "key".toList = some .key := by decide
  simp only [parseOpcode, hs, hk, parseKind, Loader.readKey?, readInt_key (spec := keySpec) hn rfl rfl]
  simp [setEnd, setStart]

theorem seenFrom_prefix : ∀ (k : Nat) (s : Text) (p : Text × List Nat), s.length ≤ k → ∃ u, (seenFrom s p).1 = p.1 ++ u := by
  intro k
  induction k with
  | zero =>
    intro s p h
    have : s = [] := List.length_eq_zero_iff.mp (by omega)
    subst this
    exact ⟨[], by rw [seenFrom]; simp⟩
  | succ k ih =>
    intro s p h
    rw [seenFrom]
    simp only
    split
    · exact ⟨_, rfl⟩
    · rename_i d rest hd
      have h1 : (d :: rest).length ≤ s.length := hd ▸ List.length_dropWhile_le _ _
      have hdd : isDigit d = true := by
        have hh := @List.head?_dropWhile_not Char (fun c => !isDigit c) s
        rw [hd] at hh
        simpa using hh
      have h2 : ((d :: rest).dropWhile isDigit).length ≤ rest.length := by
        rw [List.dropWhile_cons_of_pos hdd]; exact List.length_dropWhile_le _ _
      simp only [List.length_cons] at h1
      obtain ⟨u, hu⟩ := ih ((d :: rest).dropWhile isDigit) (if Opcode.natVal ((d :: rest).takeWhile isDigit) < 2 ^ 32 then
        (p.1 ++ (s.takeWhile (fun c => !isDigit c)).filter (· ≠ '&') ++ ['&'], p.2 ++ [Opcode.natVal ((d :: rest).takeWhile isDigit) % 2 ^ 16])
        else (p.1 ++ (s.takeWhile (fun c => !isDigit c)).filter (· ≠ '&'), p.2)) (by omega)
      rw [hu]
      split
      · exact ⟨(s.takeWhile (fun c => !isDigit c)).filter (· ≠ '&') ++ (['&'] ++ u), by simp only [List.append_assoc]⟩
      · exact ⟨(s.takeWhile (fun c => !isDigit c)).filter (· ≠ '&') ++ u, by simp only [List.append_assoc]⟩

/-- The names of the controller opcodes are not those of keys. -/
theorem seen_cc (k : Nat) : ∀ p ∈ ["on_locc".toList, "on_hicc".toList], (seen (p ++ decimal k)).1.head? = some 'o' := by
  intro p hp
  have hd := (decimal_spec k).2
  have hlast : ∀ c, (p ++ decimal k).reverse.head? = some c → isSpace c = false := by
    intro c hc
    rw [List.head?_reverse, List.getLast?_append_of_ne_nil _ hd.2] at hc
    exact Opcode.digit_not_space (hd.1 c (List.mem_of_getLast? hc))
  have hfirst : ∀ c, (p ++ decimal k).head? = some c → isSpace c = false := by
    intro c hc
    simp only [List.mem_cons, List.not_mem_nil, or_false] at hp
    rcases hp with rfl | rfl <;> (simp only [String.toList] at hc; injection hc with hc; subst hc; decide)
  rw [seen, Opcode.trim_id hfirst hlast, seenFrom]
  have htake : (p ++ decimal k).takeWhile (fun c => !isDigit c) = p := by
    have h1 : p.takeWhile (fun c => !isDigit c) = p := by
      simp only [List.mem_cons, List.not_mem_nil, or_false] at hp
      rcases hp with rfl | rfl <;> decide
    rw [List.takeWhile_append, h1, if_pos rfl]
    cases hk : decimal k with
    | nil => simp
    | cons c t =>
      have := hd.1 c (by rw [hk]; simp)
      simp [this]
  have hfil : p.filter (· ≠ '&') = p ∧ ∃ t, p = 'o' :: t := by
    simp only [List.mem_cons, List.not_mem_nil, or_false] at hp
    rcases hp with rfl | rfl <;> exact ⟨by decide, _, rfl⟩
  obtain ⟨hf, t, ht⟩ := hfil
  simp only [htake, hf, List.nil_append]
  split
  · rw [ht]; rfl
  · obtain ⟨u, hu⟩ := seenFrom_prefix _ _ _ (le_refl _)
    rw [hu]
    split <;> simp [ht]

/-- The opcodes of an element as the loader takes them. -/
def opsOf (R : Reals) (n : Node) : List Op := (opcodesOf R n).map (fun o => ⟨o.1, o.2⟩)

/-- The names of attributes about keys. -/
def keyAttributes : List Text := ["rootNote".toList, "loNote".toList, "hiNote".toList]

/-- What the other attributes write has nothing to do with keys. -/
theorem other_attribute {R : Reals} {a : Text × Text} {n v : Text} (h : convertAttribute R a = some (n, v)) (ha : (seen a.1).1 ∉ keyAttributes) :
    (seen n).1 ∉ ["lokey".toList, "hikey".toList, "key".toList, "pitch_keycenter".toList] := by
  unfold convertAttribute at h
  obtain ⟨w, hw, h⟩ := Option.bind_eq_some_iff.mp h
  have hmem : ((seen a.1).1, w) ∈ ways := lookup_mem hw
  have names : ∀ x ∈ ways, x.1 ∉ keyAttributes → ∀ m, x.2 = .int m ∨ x.2 = .real m ∨ x.2 = .copy m → m ∈ outputNames ∧ m ∉
      ["lokey".toList, "hikey".toList, "key".toList] := by
    have : ∀ x ∈ ways, x.1 ∉ keyAttributes → otherOk x.2 = true := by decide
    intro x hx hk m hm
    have := this x hx hk
    rcases hm with hm | hm | hm <;> rw [hm] at this <;> exact of_decide_eq_true this
  have plain : ∀ m ∈ outputNames, m ∉ ["lokey".toList, "hikey".toList, "key".toList] →
      (seen m).1 ∉ ["lokey".toList, "hikey".toList, "key".toList, "pitch_keycenter".toList] := by decide +kernel
  have ccs : ∀ x ∈ ways, ∀ m, x.2 = .cc m → m ∈ ["on_locc".toList, "on_hicc".toList] := by
    have : ∀ x ∈ ways, wayOk x.1 x.2 = true := by decide
    intro x hx m hm
    have := this x hx
    rw [hm] at this
    simpa using of_decide_eq_true this
  cases w with
  | int m =>
    obtain ⟨k, _, e⟩ := Option.map_eq_some_iff.mp h
    injection e with e1 e2
    obtain ⟨n1, n2⟩ := names _ hmem ha m (Or.inl rfl)
    exact e1 ▸ plain m n1 n2
  | real m =>
    obtain ⟨k, _, e⟩ := Option.map_eq_some_iff.mp h
    injection e with e1 e2
    obtain ⟨n1, n2⟩ := names _ hmem ha m (Or.inr (Or.inl rfl))
    exact e1 ▸ plain m n1 n2
  | copy m =>
    injection h with e
    injection e with e1 e2
    obtain ⟨n1, n2⟩ := names _ hmem ha m (Or.inr (Or.inr rfl))
    exact e1 ▸ plain m n1 n2
  | gain =>
    obtain ⟨k, _, e⟩ := Option.map_eq_some_iff.mp h
    injection e with e1 e2
    rw [← e1]
    split
    · exact plain _ (by decide) (by decide)
    · exact plain _ (by decide) (by decide)
  | cc m =>
    obtain ⟨k, _, e⟩ := Option.map_eq_some_iff.mp h
    injection e with e1 e2
    have := seen_cc ((seen a.1).2.headD 0) m (ccs _ hmem m rfl)
    rw [← e1]
    intro hc
    have no : ∀ t ∈ ["lokey".toList, "hikey".toList, "key".toList, "pitch_keycenter".toList], t.head? ≠ some 'o' := by decide
    exact no _ hc this
  | crossfade =>
    obtain ⟨k, _, e⟩ := Option.map_eq_some_iff.mp h
    injection e with e1 e2
    exact e1 ▸ plain _ (by decide) (by decide)
  | loop =>
    injection h with e
    injection e with e1 e2
    exact e1 ▸ plain _ (by decide) (by decide)
  | sustain =>
    obtain ⟨k, _, e⟩ := Option.map_eq_some_iff.mp h
    injection e with e1 e2
    exact e1 ▸ plain _ (by decide) (by decide)

/-- All the attributes of this name give this number. -/
def Gives (n : Node) (name : Text) (k : Nat) : Prop := ∀ a ∈ n, (seen a.1).1 = name → readLeadingInt (trim a.2) = some (k : Int)

def Has (n : Node) (name : Text) : Prop := ∃ a ∈ n, (seen a.1).1 = name

theorem settings_cons {other : Op → Bool} {r r' : Region} {o : Op} {os : List Op} (h : settings (sfz other) r (o :: os) = some r') :
    ∃ r1 b, parseOpcode other r o = some (r1, b) ∧ settings (sfz other) r1 os = some r' := by
  simp only [settings, List.foldlM_cons, Option.bind_eq_bind] at h
  obtain ⟨r1, h1, h2⟩ := Option.bind_eq_some_iff.mp h
  obtain ⟨⟨r2, b⟩, h3, e⟩ := Option.map_eq_some_iff.mp h1
  exact ⟨r1, b, by rw [← e]; exact h3, h2⟩

theorem convert_root {R : Reals} {a : Text × Text} {k : Nat} (ha : (seen a.1).1 = "rootNote".toList) (hk : readLeadingInt (trim a.2) = some (k : Int)) :
    convertAttribute R a = some ("key".toList, octaveText k) := by
  have : ways.lookup "rootNote".toList = some (.int "key".toList) := by decide
  unfold convertAttribute
  rw [ha, this, Option.bind_some]
  unfold convertWay
  rw [hk]
  rfl

theorem convert_lo {R : Reals} {a : Text × Text} {k : Nat} (ha : (seen a.1).1 = "loNote".toList) (hk : readLeadingInt (trim a.2) = some (k : Int)) :
    convertAttribute R a = some ("lokey".toList, octaveText k) := by
  have : ways.lookup "loNote".toList = some (.int "lokey".toList) := by decide
  unfold convertAttribute
  rw [ha, this, Option.bind_some]
  unfold convertWay
  rw [hk]
  rfl

theorem convert_hi {R : Reals} {a : Text × Text} {k : Nat} (ha : (seen a.1).1 = "hiNote".toList) (hk : readLeadingInt (trim a.2) = some (k : Int)) :
    convertAttribute R a = some ("hikey".toList, octaveText k) := by
  have : ways.lookup "hiNote".toList = some (.int "hikey".toList) := by decide
  unfold convertAttribute
  rw [ha, this, Option.bind_some]
  unfold convertWay
  rw [hk]
  rfl

/-- Attributes after the root note. -/
theorem after_root {R : Reals} {other : Op → Bool} {lo hi : Nat} (hlo : lo ≤ 127) (hhi : hi ≤ 127) : ∀ {n : Node} {r r' : Region},
    Gives n "loNote".toList lo → Gives n "hiNote".toList hi → ¬ Has n "rootNote".toList → settings (sfz other) r (opsOf R n) = some r' →
    r'.keycenter = r.keycenter ∧ ((Has n "loNote".toList ∨ r.keys.start = lo) → r'.keys.start = lo) ∧
      ((Has n "hiNote".toList ∨ r.keys.stop = hi) → r'.keys.stop = hi) := by
  intro n
  induction n with
  | nil =>
    intro r r' _ _ _ h
    cases h
    refine ⟨rfl, ?_, ?_⟩ <;> (rintro (⟨a, ha, _⟩ | h); · cases ha
                              · exact h)
  | cons a n ih =>
    intro r r' g1 g2 g3 h
    have g1' : Gives n "loNote".toList lo := fun b hb => g1 b (List.mem_cons_of_mem _ hb)
    have g2' : Gives n "hiNote".toList hi := fun b hb => g2 b (List.mem_cons_of_mem _ hb)
    have g3' : ¬ Has n "rootNote".toList := fun ⟨b, hb, e⟩ => g3 ⟨b, List.mem_cons_of_mem _ hb, e⟩
    have hroot : (seen a.1).1 ≠ "rootNote".toList := fun e => g3 ⟨a, List.mem_cons_self, e⟩
    have split_has : ∀ name, Has (a :: n) name → (seen a.1).1 = name ∨ Has n name := by
      rintro name ⟨b, hb, e⟩
      rcases List.mem_cons.mp hb with rfl | hb
      · exact Or.inl e
      · exact Or.inr ⟨b, hb, e⟩
    by_cases h1 : (seen a.1).1 = "loNote".toList
    · have hc := convert_lo (R := R) h1 (g1 a List.mem_cons_self h1)
      have e : opsOf R (a :: n) = ⟨"lokey".toList, octaveText lo⟩ :: opsOf R n := by simp [opsOf, opcodesOf, hc]
      rw [e] at h
      obtain ⟨r1, b, h2, h3⟩ := settings_cons h
      rw [parse_lokey other r lo hlo] at h2
      injection h2 with h2
      injection h2 with h2 _
      subst h2
      obtain ⟨i1, i2, i3⟩ := ih g1' g2' g3' h3
      refine ⟨i1, fun _ => i2 (Or.inr rfl), ?_⟩
      rintro (hh | hh)
      · rcases split_has _ hh with hh | hh
        · rw [h1] at hh; exact absurd hh (by decide)
        · exact i3 (Or.inl hh)
      · exact i3 (Or.inr hh)
    · by_cases h2 : (seen a.1).1 = "hiNote".toList
      · have hc := convert_hi (R := R) h2 (g2 a List.mem_cons_self h2)
        have e : opsOf R (a :: n) = ⟨"hikey".toList, octaveText hi⟩ :: opsOf R n := by simp [opsOf, opcodesOf, hc]
        rw [e] at h
        obtain ⟨r1, b, h3, h4⟩ := settings_cons h
        rw [parse_hikey other r hi hhi] at h3
        injection h3 with h3
        injection h3 with h3 _
        subst h3
        obtain ⟨i1, i2, i3⟩ := ih g1' g2' g3' h4
        refine ⟨i1, ?_, fun _ => i3 (Or.inr rfl)⟩
        rintro (hh | hh)
        · rcases split_has _ hh with hh | hh
          · rw [h2] at hh; exact absurd hh (by decide)
          · exact i2 (Or.inl hh)
        · exact i2 (Or.inr hh)
      · have fin : ∀ r1 : Region, r1.keys = r.keys → r1.keycenter = r.keycenter → settings (sfz other) r1 (opsOf R n) = some r' →
            r'.keycenter = r.keycenter ∧ ((Has (a :: n) "loNote".toList ∨ r.keys.start = lo) → r'.keys.start = lo) ∧
            ((Has (a :: n) "hiNote".toList ∨ r.keys.stop = hi) → r'.keys.stop = hi) := by
          intro r1 k1 k2 hs
          obtain ⟨i1, i2, i3⟩ := ih g1' g2' g3' hs
          rw [k1] at i2 i3
          refine ⟨i1.trans k2, ?_, ?_⟩
          · rintro (hh | hh)
            · exact i2 (Or.inl ((split_has _ hh).resolve_left h1))
            · exact i2 (Or.inr hh)
          · rintro (hh | hh)
            · exact i3 (Or.inl ((split_has _ hh).resolve_left h2))
            · exact i3 (Or.inr hh)
        cases hc : convertAttribute R a with
        | none =>
          have e : opsOf R (a :: n) = opsOf R n := by simp [opsOf, opcodesOf, hc]
          rw [e] at h
          exact fin r rfl rfl h
        | some o =>
          have e : opsOf R (a :: n) = ⟨o.1, o.2⟩ :: opsOf R n := by simp [opsOf, opcodesOf, hc]
          rw [e] at h
          obtain ⟨r1, b, h3, h4⟩ := settings_cons h
          have hn := other_attribute (n := o.1) (v := o.2) hc (by
            simp only [keyAttributes, List.mem_cons, List.not_mem_nil, or_false, not_or]
            exact ⟨hroot, h1, h2⟩)
          have hf := parse_frame (o := ⟨o.1, o.2⟩) h3 hn
          exact fin r1 hf.1 hf.2 h4

/-- Attributes that all are the root note. -/
theorem root_only {R : Reals} {other : Op → Bool} {root : Nat} (hroot : root ≤ 127) : ∀ {n : Node} {r r' : Region} {os : List Op},
    Gives n "rootNote".toList root → (∀ a ∈ n, (seen a.1).1 = "rootNote".toList) → settings (sfz other) r (opsOf R n ++ os) = some r' →
    ∃ r1, settings (sfz other) r1 os = some r' ∧ (n ≠ [] → r1.keycenter = root ∧ r1.keys = ⟨root, root⟩) ∧ (r.keycenter = root → r1.keycenter = root) ∧
      (r.keys = ⟨root, root⟩ → r1.keys = ⟨root, root⟩) := by
  intro n
  induction n with
  | nil => intro r r' os _ _ h; exact ⟨r, h, fun h => absurd rfl h, id, id⟩
  | cons a n ih =>
    intro r r' os g hall h
    have hc := convert_root (R := R) (hall a List.mem_cons_self) (g a List.mem_cons_self (hall a List.mem_cons_self))
    have e : opsOf R (a :: n) = ⟨"key".toList, octaveText root⟩ :: opsOf R n := by simp [opsOf, opcodesOf, hc]
    rw [e, List.cons_append] at h
    obtain ⟨r1, b, h2, h3⟩ := settings_cons h
    rw [parse_key other r root hroot] at h2
    injection h2 with h2
    injection h2 with h2 _
    subst h2
    obtain ⟨r2, s1, _, s3, s4⟩ := ih (fun b hb => g b (List.mem_cons_of_mem _ hb)) (fun b hb => hall b (List.mem_cons_of_mem _ hb)) h3
    exact ⟨r2, s1, fun _ => ⟨s3 rfl, s4 rfl⟩, fun _ => s3 rfl, fun _ => s4 rfl⟩

theorem sorted_split : ∀ {n : Node}, n.Pairwise (fun a b => score a ≤ score b) →
    ∃ a b, n = a ++ b ∧ (∀ x ∈ a, (seen x.1).1 = "rootNote".toList) ∧ ¬ Has b "rootNote".toList := by
  intro n
  induction n with
  | nil => intro _; exact ⟨[], [], rfl, by simp, fun ⟨_, h, _⟩ => by cases h⟩
  | cons x n ih =>
    intro h
    obtain ⟨h1, h2⟩ := List.pairwise_cons.mp h
    by_cases hx : (seen x.1).1 = "rootNote".toList
    · obtain ⟨a, b, e, ha, hb⟩ := ih h2
      refine ⟨x :: a, b, by rw [e]; rfl, ?_, hb⟩
      intro y hy
      rcases List.mem_cons.mp hy with rfl | hy
      · exact hx
      · exact ha y hy
    · refine ⟨[], x :: n, rfl, by simp, ?_⟩
      rintro ⟨y, hy, e⟩
      rcases List.mem_cons.mp hy with rfl | hy
      · exact hx e
      · have := h1 y hy
        unfold score at this
        rw [if_neg hx, if_pos e] at this
        exact absurd this (by decide)

/-- **C115.** A sample whose own attributes give the root note and the ends of its key range — written in any order, between any other
attributes, in whatever order the unstable sort leaves them, and whatever its group says — becomes a region with exactly that range and that pitch
centre. -/
theorem key_range (R : Reals) (other : Op → Bool) (node sorted : Node) (root lo hi : Nat) (r r' : Region)
    (hs : SortedFrom node sorted) (h1 : root ≤ 127) (h2 : lo ≤ 127) (h3 : hi ≤ 127)
    (g1 : Has node "rootNote".toList) (g2 : Gives node "rootNote".toList root) (g3 : Has node "loNote".toList) (g4 : Gives node "loNote".toList lo)
    (g5 : Has node "hiNote".toList) (g6 : Gives node "hiNote".toList hi) (h : settings (sfz other) r (opsOf R sorted) = some r') :
    r'.keys = ⟨lo, hi⟩ ∧ r'.keycenter = root := by
  have gives : ∀ {name k}, Gives node name k → Gives sorted name k := fun g a ha => g a (hs.1.mem_iff.mp ha)
  have has : ∀ {name}, Has node name → Has sorted name := fun ⟨a, ha, e⟩ => ⟨a, hs.1.mem_iff.mpr ha, e⟩
  obtain ⟨a, b, e, ha, hb⟩ := sorted_split hs.2
  have g1 := has g1; have g2 := gives g2; have g3 := has g3; have g4 := gives g4; have g5 := has g5; have g6 := gives g6
  subst e
  have inb : ∀ {name}, name ≠ "rootNote".toList → Has (a ++ b) name → Has b name := by
    rintro name hn ⟨x, hx, e⟩
    rcases List.mem_append.mp hx with hx | hx
    · exact absurd (e.symm.trans (ha x hx)) hn
    · exact ⟨x, hx, e⟩
  have eo : opsOf R (a ++ b) = opsOf R a ++ opsOf R b := by simp [opsOf, opcodesOf]
  rw [eo] at h
  have hne : a ≠ [] := by
    rintro rfl
    exact hb (by simpa using g1)
  obtain ⟨r1, s1, s2, _⟩ := root_only h1 (fun x hx => g2 x (List.mem_append_left _ hx)) ha h
  obtain ⟨i1, i2, i3⟩ := after_root h2 h3 (fun x hx => g4 x (List.mem_append_right _ hx)) (fun x hx => g6 x (List.mem_append_right _ hx)) hb s1
  have e1 := i2 (Or.inl (inb (by decide) g3))
  have e2 := i3 (Or.inl (inb (by decide) g5))
  refine ⟨?_, i1.trans (s2 hne).1⟩
  rw [← e1, ← e2]

/-- A sample that gives its root note and neither end of its range becomes a region for this one key: the range that its group (or the whole
instrument) gives is overwritten, whatever it is. -/
theorem group_range_lost (R : Reals) (other : Op → Bool) (node sorted : Node) (root : Nat) (r r' : Region)
    (hs : SortedFrom node sorted) (h1 : root ≤ 127) (g1 : Has node "rootNote".toList) (g2 : Gives node "rootNote".toList root)
    (g3 : ¬ Has node "loNote".toList) (g4 : ¬ Has node "hiNote".toList) (h : settings (sfz other) r (opsOf R sorted) = some r') :
    r'.keys = ⟨root, root⟩ ∧ r'.keycenter = root := by
  have nohas : ∀ {name}, ¬ Has node name → ¬ Has sorted name := fun g ⟨a, ha, e⟩ => g ⟨a, hs.1.mem_iff.mp ha, e⟩
  obtain ⟨a, b, e, ha, hb⟩ := sorted_split hs.2
  have g1 : Has sorted "rootNote".toList := by
    obtain ⟨x, hx, e⟩ := g1
    exact ⟨x, hs.1.mem_iff.mpr hx, e⟩
  have g2 : Gives sorted "rootNote".toList root := fun x hx => g2 x (hs.1.mem_iff.mp hx)
  have g3 := nohas g3; have g4 := nohas g4
  subst e
  have eo : opsOf R (a ++ b) = opsOf R a ++ opsOf R b := by simp [opsOf, opcodesOf]
  rw [eo] at h
  have hne : a ≠ [] := by
    rintro rfl
    exact hb (by simpa using g1)
  obtain ⟨r1, s1, s2, _⟩ := root_only h1 (fun x hx => g2 x (List.mem_append_left _ hx)) ha h
  obtain ⟨i1, i2, i3⟩ := after_root h1 h1 (fun x hx e => absurd ⟨x, List.mem_append_right _ hx, e⟩ g3)
    (fun x hx e => absurd ⟨x, List.mem_append_right _ hx, e⟩ g4) hb s1
  obtain ⟨k1, k2⟩ := s2 hne
  have e1 := i2 (Or.inr (by rw [k2]))
  have e2 := i3 (Or.inr (by rw [k2]))
  refine ⟨?_, i1.trans k1⟩
  cases hk : r'.keys with
  | mk x y => rw [hk] at e1 e2; rw [show x = root from e1, show y = root from e2]

/-! ### Examples and violations -/

/-- No real number is ever read. -/
def noReals : Reals := ⟨fun _ => none, fun _ => none, fun _ => none, fun _ => []⟩

/-- A sample with its range, written after other attributes and with the root note last. -/
def rangeNode : Node := [("hiNote".toList, " 64".toList), ("path".toList, "c4.wav".toList), ("loNote".toList, "58x".toList), ("rootNote".toList, "60".toList)]

def rangeSorted : Node := [("rootNote".toList, "60".toList), ("hiNote".toList, " 64".toList), ("path".toList, "c4.wav".toList), ("loNote".toList, "58x".toList)]

/-- The hypotheses of `key_range` hold of a sample: 58 to 64 with the centre at 60. -/
example : SortedFrom rangeNode rangeSorted ∧ Has rangeNode "rootNote".toList ∧ Gives rangeNode "rootNote".toList 60 ∧
    Has rangeNode "loNote".toList ∧ Gives rangeNode "loNote".toList 58 ∧ Has rangeNode "hiNote".toList ∧ Gives rangeNode "hiNote".toList 64 ∧
    ((settings (sfz (fun _ => true)) { id := 0, path := [] } (opsOf noReals rangeSorted)).map (fun r => (r.keys.start, r.keys.stop, r.keycenter))) = some (58, 64, 60) := by
  unfold SortedFrom Has Gives rangeNode rangeSorted
  refine ⟨⟨by decide +kernel, by decide +kernel⟩, by decide +kernel, by decide +kernel, by decide +kernel, by decide +kernel, by decide +kernel,
    by decide +kernel, by decide +kernel⟩

/-- A group for the keys 48 to 60, with one sample whose root note is 54. -/
def groupPreset : Preset :=
  { image := [], groups := [], parts := [([("loNote".toList, "48".toList), ("hiNote".toList, "60".toList)],
      [[("rootNote".toList, "54".toList), ("path".toList, "pad.wav".toList)]])] }

/-- The headers that the importer writes. -/
def headerOf (n : Text) : Header :=
  ([("global".toList, Header.global), ("control".toList, Header.control), ("group".toList, Header.group), ("region".toList, Header.region)].lookup n).getD
    .other

/-- The blocks as the loader takes them. -/
def fileOf (bs : List (Text × List (Text × Text))) : List Block := bs.map (fun b => ⟨headerOf b.1, b.2.map (fun o => ⟨o.1, o.2⟩)⟩)

/-- The key ranges of the loaded regions. -/
def rangesOf (p : Preset) : Option (List (Nat × Nat)) :=
  (Loader.load (sfz (fun _ => true)) (fileOf (blocksOf noReals p))).map (fun s => s.layers.map (fun l => (l.1.keys.start, l.1.keys.stop)))

/-- **C115, violated.** The range of a group reaches its samples only when they give no root note: the same group with and without a root note in
its sample. -/
theorem group_range_violated : rangesOf groupPreset = some [(54, 54)] ∧
    rangesOf { groupPreset with parts := groupPreset.parts.map (fun g => (g.1, g.2.map (fun s => s.drop 1))) } = some [(48, 60)] := by
  constructor <;> decide +kernel

/-- **C115, violated.** Round robins do not work: the importer writes the position of a sample in the sequence and never its length, so that the
length stays 1, and a region with a later position never plays. -/
theorem round_robin_violated : (∀ (R : Reals) (n : Node), ∀ o ∈ opcodesOf R n, (seen o.1).1 ≠ "seq_length".toList) ∧
    (∀ R : Reals, ("seq_position".toList, "2".toList) ∈ opcodesOf R [("seqPosition".toList, "2".toList)]) ∧
    ∀ (r : Layer.Region) (m : Midi.State) (s : Layer.State) (note : Int) (velocity rand : ℚ), r.sequenceLength = 1 → 2 ≤ r.sequencePosition →
      (Layer.registerNoteOn r m s note velocity rand).2 = false := by
  refine ⟨?_, ?_, ?_⟩
  · intro R n o ho
    obtain ⟨a, _, h⟩ := List.mem_filterMap.mp ho
    rcases (convert_cases (n := o.1) (v := o.2) h).1 with h | h
    · have : ∀ m ∈ outputNames, (seen m).1 ≠ "seq_length".toList := by decide +kernel
      exact this _ h
    · intro hc
      obtain ⟨k, h⟩ := h
      have h2 : (seen o.1).1.head? = some 'o' := by
        rcases h with h | h <;> rw [h]
        · exact seen_cc k _ (by simp)
        · exact seen_cc k _ (by simp)
      rw [hc] at h2
      exact absurd h2 (by decide)
  · intro R
    have : convertAttribute R ("seqPosition".toList, "2".toList) = some ("seq_position".toList, "2".toList) := by
      have e1 : (seen "seqPosition".toList).1 = "seqPosition".toList := by decide +kernel
      have e2 : ways.lookup "seqPosition".toList = some (.int "seq_position".toList) := by decide
      have e3 : readLeadingInt (trim "2".toList) = some 2 := by decide +kernel
      unfold convertAttribute
      rw [e1, e2, Option.bind_some]
      unfold convertWay
      have e4 : octaveText 2 = "2".toList := by decide +kernel
      exact (congrArg (Option.map (fun n => ("seq_position".toList, octaveText n))) e3).trans (by rw [Option.map_some, e4])
    exact List.mem_filterMap.mpr ⟨_, List.mem_singleton.mpr rfl, this⟩
  · intro r m s note velocity rand h1 h2
    unfold Layer.registerNoteOn
    cases hk : Range.containsWithEnd r.keyRange note with
    | false => simp only; split_ifs <;> simp
    | true =>
      have : (Layer.sequenceStep r s).sequenceSwitched = false := by
        simp only [Layer.sequenceStep, h1, Nat.mod_one, decide_eq_false_iff_not]
        omega
      simp [Layer.isSwitchedOn, this]

/-- A preset of two groups, with a velocity range and a trigger, a space in a path. -/
def samplePreset : Preset :=
  { image := "bg image.png".toList, groups := [("volume".toList, "-3dB".toList)],
    parts := [([("loVel".toList, "1".toList)], [rangeSorted, [("path".toList, "Samples-C 5.wav".toList), ("trigger".toList, "release".toList)]]),
      ([], [])] }

/-- The hypotheses of `preset_import_partial` hold of it. -/
example : samplePreset.Quotable ∧ noReals.Sound ∧ (blocksOf noReals samplePreset).map (fun b => (String.ofList b.1, b.2.length)) =
    [("control", 1), ("global", 0), ("group", 1), ("region", 4), ("region", 2), ("group", 0)] := by
  refine ⟨?_, ?_, by decide +kernel⟩
  · have plain : ∀ v : Text, ('$' ∉ v ∧ '\r' ∉ v ∧ '\n' ∉ v ∧ '/' ∉ v ∧ '<' ∉ v ∧ '=' ∉ v ∧ '#' ∉ v ∧ eofByte ∉ v ∧
        v.getLast? ≠ some ' ' ∧ v.getLast? ≠ some '\t') → Import.Quotable v := by
      rintro v ⟨h1, h2, h3, h4, h5, h6, h7, h8, h9, h10⟩
      exact ⟨h1, h2, h3, fun a d b h => absurd (by rw [h]; simp) h4, ValueText.simple h5 h6 h7 h9 h10, h8⟩
    exact ⟨plain _ (by decide +kernel), fun a ha _ => plain _ ((by decide +kernel : ∀ a ∈ attributesOf samplePreset, '$' ∉ trim a.2 ∧
      '\r' ∉ trim a.2 ∧ '\n' ∉ trim a.2 ∧ '/' ∉ trim a.2 ∧ '<' ∉ trim a.2 ∧ '=' ∉ trim a.2 ∧ '#' ∉ trim a.2 ∧
      eofByte ∉ trim a.2 ∧ (trim a.2).getLast? ≠ some ' ' ∧ (trim a.2).getLast? ≠ some '\t') a ha)⟩
  · intro v t h
    rcases h with h | h | h <;> cases h

end Verif.Import
