import Verif.Opcode.Model

/-! C29: decomposition of opcode names; C59: names of companion opcodes. -/
namespace Verif.Opcode

/-! ### Specification -/

/-- A name written as pieces (letters followed by the digits of a number) and a tail of letters. -/
def assemble : List (Text × Text) → Text → Text
  | [], tail => tail
  | (l, d) :: ps, tail => l ++ (d ++ assemble ps tail)

/-- Pieces delimit the numbers: letters hold no digit, numbers are whole (not adjacent to another number). -/
def Pieces : Bool → List (Text × Text) → Prop
  | _, [] => True
  | first, (l, d) :: ps =>
    (first = true ∨ l ≠ []) ∧ (∀ c ∈ l, isDigit c = false) ∧ d ≠ [] ∧ (∀ c ∈ d, isDigit c = true) ∧ Pieces false ps

/-- The letters of the pieces with one `&` for each number. -/
def lettersOf : List (Text × Text) → Text → Text
  | [], tail => tail
  | (l, _) :: ps, tail => l ++ '&' :: lettersOf ps tail

/-- No digit. -/
def NoDigit (s : Text) : Prop := ∀ c ∈ s, isDigit c = false

/-! ### Lemmas -/

theorem takeWhile_append_stop {p : Char → Bool} : ∀ (a b : Text), (∀ c ∈ a, p c = true) → (∀ c, b.head? = some c → p c = false) →
    (a ++ b).takeWhile p = a ∧ (a ++ b).dropWhile p = b := by
  intro a
  induction a with
  | nil =>
    intro b _ hb
    cases b with
    | nil => exact ⟨rfl, rfl⟩
    | cons x b => have := hb x rfl; simp [this]
  | cons x a ih =>
    intro b ha hb
    have hx := ha x (by simp)
    obtain ⟨h1, h2⟩ := ih b (fun c hc => ha c (by simp [hc])) hb
    simp [hx, h1, h2]

theorem assemble_head {ps : List (Text × Text)} {tail : Text} (h : Pieces false ps) (ht : NoDigit tail) :
    ∀ c, (assemble ps tail).head? = some c → isDigit c = false := by
  intro c hc
  cases ps with
  | nil => exact ht c (List.mem_of_mem_head? hc)
  | cons p ps =>
    obtain ⟨l, d⟩ := p
    obtain ⟨h1, h2, _⟩ := h
    simp only [Bool.false_eq_true, false_or] at h1
    cases l with
    | nil => exact absurd rfl h1
    | cons x l =>
      simp only [assemble, List.cons_append, List.head?_cons, Option.some.injEq] at hc
      exact hc ▸ h2 x (by simp)

/-- The effect of the pieces on hash and parameters. -/
def partsOf : List (Text × Text) → Text → Parts → Parts
  | [], tail, p => { p with hash := hashNoAmpersand tail p.hash }
  | (l, d) :: ps, tail, p => partsOf ps tail (addNumber { p with hash := hashNoAmpersand l p.hash } d)

theorem scan_assemble (tail : Text) (ht : NoDigit tail) : ∀ (ps : List (Text × Text)) (b : Bool) (p : Parts), Pieces b ps →
    scan (assemble ps tail) p = partsOf ps tail p := by
  intro ps
  induction ps with
  | nil =>
    intro b p _
    have h := takeWhile_append_stop (p := fun c => !isDigit c) tail [] (fun c hc => by simp [ht c hc]) (by simp)
    rw [List.append_nil] at h
    unfold scan
    simp only [assemble]
    split
    · rw [h.1]; rfl
    · rename_i heq; rw [h.2] at heq; cases heq
  | cons q ps ih =>
    intro b p hp
    obtain ⟨l, d⟩ := q
    obtain ⟨_, hl, hd, hdd, hrest⟩ := hp
    have h1 := takeWhile_append_stop (p := fun c => !isDigit c) l (d ++ assemble ps tail) (fun c hc => by simp [hl c hc]) (by
      intro c hc
      cases d with
      | nil => exact absurd rfl hd
      | cons x d => simp only [List.cons_append, List.head?_cons, Option.some.injEq] at hc; simp [← hc, hdd x (by simp)])
    have h2 := takeWhile_append_stop (p := isDigit) d (assemble ps tail) hdd (assemble_head hrest ht)
    unfold scan
    simp only [assemble]
    split
    · rename_i heq
      rw [h1.2] at heq
      exact absurd (List.append_eq_nil_iff.mp heq).1 hd
    · rename_i x rest heq
      rw [h1.2] at heq
      rw [← heq, h2.1, h2.2, h1.1, ih false _ hrest]
      rfl

theorem hash_append (a b : Text) (h : UInt64) : hash (a ++ b) h = hash b (hash a h) := List.foldl_append

theorem foldl_noAmp {β : Type} (f : β → Char → β) : ∀ (a : Text) (h : β), '&' ∉ a →
    a.foldl (fun h c => if c = '&' then h else f h c) h = a.foldl f h := by
  intro a
  induction a with
  | nil => intro h _; rfl
  | cons c a ih =>
    intro h ha
    have hc : c ≠ '&' := fun hh => ha (by simp [hh])
    simp only [List.foldl_cons, hc, if_false]
    exact ih _ (fun hh => ha (by simp [hh]))

theorem noAmp (a : Text) (h : UInt64) (ha : '&' ∉ a) : hashNoAmpersand a h = hash a h := foldl_noAmp hashByte a h ha

theorem hash_cons (c : Char) (b : Text) (h : UInt64) : hash (c :: b) h = hash b (hash [c] h) := by
  rw [← hash_append]; rfl

theorem partsOf_eq (tail : Text) (hat : '&' ∉ tail) : ∀ (ps : List (Text × Text)) (p : Parts),
    (∀ q ∈ ps, natVal q.2 < 2 ^ 32 ∧ '&' ∉ q.1) →
    partsOf ps tail p = { hash := hash (lettersOf ps tail) p.hash, parameters := p.parameters ++ ps.map (fun q => natVal q.2 % 2 ^ 16) } := by
  intro ps
  induction ps with
  | nil => intro p _; simp [partsOf, lettersOf, noAmp _ _ hat]
  | cons q ps ih =>
    intro p h
    obtain ⟨l, d⟩ := q
    obtain ⟨h1, h2⟩ := h (l, d) (by simp)
    simp only at h1 h2
    simp only [partsOf, addNumber, h1, if_true]
    rw [ih _ (fun q hq => h q (by simp [hq])), noAmp _ _ h2]
    simp only [lettersOf, List.map_cons, List.append_assoc, List.singleton_append]
    rw [hash_append, hash_cons '&' (lettersOf ps tail)]

theorem letterLoop_letters : ∀ (l rest : Text) (b : Bool), NoDigit l → l ≠ [] →
    letterLoop (l ++ rest) b = l ++ letterLoop rest false := by
  intro l
  induction l with
  | nil => intro rest b _ h; exact absurd rfl h
  | cons c l ih =>
    intro rest b h _
    have hc := h c (by simp)
    cases l with
    | nil => simp [letterLoop, hc]
    | cons x l =>
      have := ih rest false (fun c hc => h c (by simp [hc])) (by simp)
      simp only [List.cons_append] at this ⊢
      rw [letterLoop]
      simp [hc, this]

theorem letterLoop_digits : ∀ (d rest : Text), (∀ c ∈ d, isDigit c = true) → letterLoop (d ++ rest) true = letterLoop rest true := by
  intro d
  induction d with
  | nil => intro rest _; rfl
  | cons c d ih =>
    intro rest h
    have hc := h c (by simp)
    simp [letterLoop, hc, ih rest (fun c hc => h c (by simp [hc]))]

theorem letterLoop_assemble (tail : Text) (ht : NoDigit tail) : ∀ (ps : List (Text × Text)) (b : Bool), Pieces (!b) ps →
    letterLoop (assemble ps tail) b = lettersOf ps tail := by
  intro ps
  induction ps with
  | nil =>
    intro b _
    simp only [assemble, lettersOf]
    cases tail with
    | nil => rfl
    | cons c t =>
      have := letterLoop_letters (c :: t) [] b ht (by simp)
      simpa [letterLoop] using this
  | cons q ps ih =>
    intro b hp
    obtain ⟨l, d⟩ := q
    obtain ⟨h0, hl, hd, hdd, hrest⟩ := hp
    have key : letterLoop (d ++ assemble ps tail) false = '&' :: lettersOf ps tail := by
      cases d with
      | nil => exact absurd rfl hd
      | cons x d =>
        have hx := hdd x (by simp)
        simp only [List.cons_append, letterLoop, hx, if_true, Bool.false_eq_true, if_false]
        rw [letterLoop_digits d _ (fun c hc => hdd c (by simp [hc])), ih true hrest]
    simp only [assemble, lettersOf]
    by_cases hle : l = []
    · subst hle
      have hb : b = false := by simpa using h0
      subst hb
      simpa using key
    · rw [letterLoop_letters l _ b hl hle, key]

theorem dropWhile_head (p : Char → Bool) (s : Text) : ∀ c, (s.dropWhile p).head? = some c → p c = false := by
  induction s with
  | nil => simp
  | cons x s ih =>
    intro c hc
    by_cases hx : p x = true
    · rw [List.dropWhile_cons_of_pos hx] at hc; exact ih c hc
    · rw [List.dropWhile_cons_of_neg hx] at hc
      simp only [List.head?_cons, Option.some.injEq] at hc
      subst hc
      simpa using hx

theorem takeWhile_all (p : Char → Bool) (s : Text) : ∀ c ∈ s.takeWhile p, p c = true := by
  induction s with
  | nil => simp
  | cons x s ih =>
    intro c hc
    by_cases hx : p x = true
    · rw [List.takeWhile_cons_of_pos hx, List.mem_cons] at hc
      rcases hc with rfl | hc
      · exact hx
      · exact ih c hc
    · rw [List.takeWhile_cons_of_neg hx] at hc; cases hc

theorem pieces_exist : ∀ (k : Nat) (s : Text), s.length ≤ k → ∃ ps tail, Pieces true ps ∧ NoDigit tail ∧ assemble ps tail = s ∧
    ((∀ c, s.head? = some c → isDigit c = false) → Pieces false ps) := by
  intro k
  induction k with
  | zero =>
    intro s h
    have : s = [] := List.length_eq_zero_iff.mp (Nat.le_zero.mp h)
    exact ⟨[], s, trivial, by simp [this, NoDigit], rfl, fun _ => trivial⟩
  | succ k ih =>
    intro s h
    let l := s.takeWhile (fun c => !isDigit c)
    let r := s.dropWhile (fun c => !isDigit c)
    have hlr : l ++ r = s := List.takeWhile_append_dropWhile
    have hl : ∀ c ∈ l, isDigit c = false := fun c hc => by simpa using takeWhile_all (fun c => !isDigit c) s c hc
    by_cases hr : r = []
    · refine ⟨[], s, trivial, ?_, rfl, fun _ => trivial⟩
      rw [hr, List.append_nil] at hlr
      rw [← hlr]; exact hl
    · have hrh : ∀ c, r.head? = some c → isDigit c = true := by
        intro c hc
        simpa using dropWhile_head (fun c => !isDigit c) s c hc
      let d := r.takeWhile isDigit
      let t := r.dropWhile isDigit
      have hdt : d ++ t = r := List.takeWhile_append_dropWhile
      have hd : d ≠ [] := by
        cases hr' : r with
        | nil => exact absurd hr' hr
        | cons x r' =>
          have hx := hrh x (by rw [hr']; rfl)
          simp only [d, hr', List.takeWhile_cons_of_pos hx]
          simp
      have hlen : t.length ≤ k := by
        have h1 : d.length + t.length = r.length := by rw [← hdt]; simp
        have h2 : l.length + r.length = s.length := by rw [← hlr]; simp
        have h3 : d.length ≠ 0 := fun hh => hd (List.length_eq_zero_iff.mp hh)
        omega
      obtain ⟨ps, tail, _, h2, h3, h4⟩ := ih t hlen
      have hps : Pieces false ps := h4 (dropWhile_head isDigit r)
      have has : assemble ((l, d) :: ps) tail = s := by
        simp only [assemble, h3]
        rw [hdt, hlr]
      refine ⟨(l, d) :: ps, tail, ⟨Or.inl rfl, hl, hd, takeWhile_all isDigit r, hps⟩, h2, has, fun hh => ?_⟩
      refine ⟨Or.inr ?_, hl, hd, takeWhile_all isDigit r, hps⟩
      intro hle
      rw [hle, List.nil_append] at hlr
      cases hr' : r with
      | nil => exact hr hr'
      | cons x r' =>
        have h1 := hrh x (by rw [hr']; rfl)
        rw [← hlr, hr'] at hh
        rw [hh x rfl] at h1; cases h1

/-! ### C29 -/

/-- Every name is made of pieces. -/
theorem name_has_pieces (name : Text) : ∃ ps tail, Pieces true ps ∧ NoDigit tail ∧ assemble ps tail = name := by
  obtain ⟨ps, tail, h1, h2, h3, _⟩ := pieces_exist _ name (le_refl _)
  exact ⟨ps, tail, h1, h2, h3⟩

/-- C29: whatever the pieces of a name (numbers below 65536, no `&` in the letters; larger numbers:
`large_number_violated`, `huge_number_violated`), the parameters are its numbers in order, the opcode is identified by its
letters with one mark for each number, and these are the letters of `getLetterOnlyName`. -/
theorem opcode_name_partial (ps : List (Text × Text)) (tail input : Text) (hp : Pieces true ps) (ht : NoDigit tail)
    (hin : trim input = assemble ps tail) (hnum : ∀ q ∈ ps, natVal q.2 < 65536) (hamp : '&' ∉ assemble ps tail) :
    (decompose input).parameters = ps.map (fun q => natVal q.2) ∧
    (decompose input).hash = hash (lettersOf ps tail) ∧
    letterOnlyName (trim input) = lettersOf ps tail := by
  have hl : ∀ q ∈ ps, '&' ∉ q.1 := by
    intro q hq hm
    apply hamp
    clear hp hnum hamp hin
    induction ps with
    | nil => cases hq
    | cons r ps ih =>
      obtain ⟨l, d⟩ := r
      rcases List.mem_cons.mp hq with rfl | hq
      · simp only [assemble, List.mem_append]; exact Or.inl hm
      · simp only [assemble, List.mem_append]; exact Or.inr (Or.inr (ih hq))
  have hta : '&' ∉ tail := by
    intro hm
    apply hamp
    clear hp hnum hamp hin hl
    induction ps with
    | nil => exact hm
    | cons r ps ih => simp only [assemble, List.mem_append]; exact Or.inr (Or.inr ih)
  unfold decompose letterOnlyName
  rw [hin, scan_assemble tail ht ps true {} hp, letterLoop_assemble tail ht ps false hp,
    partsOf_eq tail hta ps {} (fun q hq => ⟨by have := hnum q hq; omega, hl q hq⟩)]
  refine ⟨?_, rfl, rfl⟩
  simp only [List.nil_append]
  apply List.map_congr_left
  intro q hq
  exact Nat.mod_eq_of_lt (hnum q hq)

/-- C29: names that differ only by their numbers are the same opcode, with as many parameters. -/
theorem same_letters_same_opcode (a b : Text) (ps qs : List (Text × Text)) (ta tb : Text)
    (ha : trim a = assemble ps ta) (hb : trim b = assemble qs tb) (hpa : Pieces true ps) (hpb : Pieces true qs)
    (hta : NoDigit ta) (htb : NoDigit tb) (hna : ∀ q ∈ ps, natVal q.2 < 65536) (hnb : ∀ q ∈ qs, natVal q.2 < 65536)
    (haa : '&' ∉ trim a) (hab : '&' ∉ trim b) (h : letterOnlyName (trim a) = letterOnlyName (trim b)) :
    (decompose a).hash = (decompose b).hash := by
  obtain ⟨_, h2, h3⟩ := opcode_name_partial ps ta a hpa hta ha hna (ha ▸ haa)
  obtain ⟨_, g2, g3⟩ := opcode_name_partial qs tb b hpb htb hb hnb (hb ▸ hab)
  rw [h2, g2, ← h3, ← g3, h]

/-- A concrete name. -/
example : Pieces true [("eg".toList, "1".toList), ("_pitch_oncc".toList, "20".toList)] ∧
    assemble [("eg".toList, "1".toList), ("_pitch_oncc".toList, "20".toList)] [] = "eg1_pitch_oncc20".toList ∧
    (decompose "eg1_pitch_oncc20".toList).parameters = [1, 20] ∧
    letterOnlyName "eg1_pitch_oncc20".toList = "eg&_pitch_oncc&".toList := by
  refine ⟨by simp [Pieces, isDigit], by decide, by decide +kernel, by decide⟩

/-- C29 fails for numbers above 65535: the parameter is truncated ... -/
theorem large_number_violated : (decompose "cutoff_cc65600".toList).parameters = [64] := by decide +kernel

/-- ... and numbers of more than 32 bits are dropped with their mark: this is taken for another opcode, `cutoff`. -/
theorem huge_number_violated : decompose "cutoff4294967296".toList = decompose "cutoff".toList ∧
    decompose "cutoff4294967295".toList ≠ decompose "cutoff".toList := by decide +kernel

/-! ### C59 -/

theorem endsWith_append (a b : Text) : endsWith (a ++ b) b = true := by
  unfold endsWith
  rw [List.reverse_append, List.isPrefixOf_iff_prefix]
  exact List.prefix_append _ _

theorem back_split (a d : Text) (hd : ∀ c ∈ d, isDigit c = true) (ha : ∀ c, a.reverse.head? = some c → isDigit c = false) :
    backInteger (a ++ d) = d ∧ dropBackInteger (a ++ d) = a := by
  have h := takeWhile_append_stop (p := isDigit) d.reverse a.reverse (fun c hc => hd c (List.mem_reverse.mp hc)) ha
  unfold backInteger dropBackInteger
  rw [List.reverse_append, h.1, h.2]
  simp

theorem beforeLast (base rest : Text) (hr : '_' ∉ rest) : beforeLastUnderscore (base ++ '_' :: rest) = base := by
  unfold beforeLastUnderscore
  have h := takeWhile_append_stop (p := fun c => decide (c ≠ '_')) rest.reverse ('_' :: base.reverse) (by
    intro c hc
    have : c ≠ '_' := fun hh => hr (by rw [← hh]; exact List.mem_reverse.mp hc)
    simp [this]) (by intro c hc; simp only [List.head?_cons, Option.some.injEq] at hc; simp [← hc])
  rw [List.reverse_append, List.reverse_cons, List.append_assoc, List.singleton_append, h.2]
  simp

/-- The words of the categories. -/
def words : List (Category × Text) :=
  [(.onCc, "_oncc".toList), (.curveCc, "_curvecc".toList), (.stepCc, "_stepcc".toList), (.smoothCc, "_smoothcc".toList)]

theorem category_of (base d : Text) (w : Category × Text) (hw : w ∈ words) (hd : d ≠ []) (hdd : ∀ c ∈ d, isDigit c = true) :
    identifyCategory (base ++ w.2 ++ d) = w.1 := by
  have hlast : ∀ c, (base ++ w.2).reverse.head? = some c → isDigit c = false := by
    intro c hc
    simp only [words, List.mem_cons, List.not_mem_nil, or_false] at hw
    rcases hw with rfl | rfl | rfl | rfl <;>
      (simp at hc; subst hc; decide)
  obtain ⟨h1, h2⟩ := back_split (base ++ w.2) d hdd hlast
  unfold identifyCategory
  rw [if_pos (by rw [h1]; exact hd), h2]
  simp only [words, List.mem_cons, List.not_mem_nil, or_false] at hw
  rcases hw with rfl | rfl | rfl | rfl <;> simp [endsWith, List.isPrefixOf]

/-- C59: the companion names of a controller opcode (`..._onccN` to `..._curveccN`, `..._stepccN`, `..._smoothccN`, and back)
concern the same target and the same controller, and are recognized as companions. -/
theorem companion_name (base d : Text) (w w' : Category × Text) (hw : w ∈ words) (hw' : w' ∈ words) (hd : d ≠ [])
    (hdd : ∀ c ∈ d, isDigit c = true) :
    derivedName (base ++ w.2 ++ d) (identifyCategory (base ++ w.2 ++ d)) w'.1 none = base ++ w'.2 ++ d ∧
    identifyCategory (base ++ w'.2 ++ d) = w'.1 ∧
    derivedName (base ++ w.2 ++ d) (identifyCategory (base ++ w.2 ++ d)) .normal none = base := by
  rw [category_of base d w hw hd hdd, category_of base d w' hw' hd hdd]
  have hnd : '_' ∉ d := by
    intro h
    have := hdd _ h
    revert this; decide
  have hlast : ∀ c, (base ++ w.2).reverse.head? = some c → isDigit c = false := by
    intro c hc
    simp only [words, List.mem_cons, List.not_mem_nil, or_false] at hw
    rcases hw with rfl | rfl | rfl | rfl <;>
      (simp at hc; subst hc; decide)
  obtain ⟨h1, _⟩ := back_split (base ++ w.2) d hdd hlast
  have hb : beforeLastUnderscore (base ++ w.2 ++ d) = base := by
    simp only [words, List.mem_cons, List.not_mem_nil, or_false] at hw
    rcases hw with rfl | rfl | rfl | rfl
    · rw [List.append_assoc]; exact beforeLast base (['o', 'n', 'c', 'c'] ++ d) (by simp [hnd])
    · rw [List.append_assoc]; exact beforeLast base (['c', 'u', 'r', 'v', 'e', 'c', 'c'] ++ d) (by simp [hnd])
    · rw [List.append_assoc]; exact beforeLast base (['s', 't', 'e', 'p', 'c', 'c'] ++ d) (by simp [hnd])
    · rw [List.append_assoc]; exact beforeLast base (['s', 'm', 'o', 'o', 't', 'h', 'c', 'c'] ++ d) (by simp [hnd])
  have hc : w.1 ≠ .normal := by
    simp only [words, List.mem_cons, List.not_mem_nil, or_false] at hw
    rcases hw with rfl | rfl | rfl | rfl <;> decide
  unfold derivedName
  simp only [hc, if_false, hb, h1]
  refine ⟨?_, trivial, rfl⟩
  simp only [words, List.mem_cons, List.not_mem_nil, or_false] at hw'
  rcases hw' with rfl | rfl | rfl | rfl <;> simp [suffixOf]

example : derivedName "lfo2_cutoff_oncc74".toList (identifyCategory "lfo2_cutoff_oncc74".toList) .curveCc none =
    "lfo2_cutoff_curvecc74".toList := by decide

end Verif.Opcode
