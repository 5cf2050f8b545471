import Verif.Tuning.Lemmas
import Mathlib.Data.List.TakeWhile

/-! Reading Scala files: what a file may look like, and what the reader makes of it. -/
namespace Verif.Tuning

/-! ### What is written in a file -/

/-- A tone as written: a number of cents with a period, a whole number, or a fraction. Digits are characters. -/
inductive Written where
  | cents (minus : Bool) (whole fraction : Text)
  | whole (n : Text)
  | fraction (n d : Text)

/-- Decimal digits, the first being the most significant, as a number. -/
def decimal : Text → Nat
  | [] => 0
  | c :: s => (c.toNat - 48) * 10 ^ s.length + decimal s

/-- The characters of a tone. -/
def Written.text : Written → Text
  | .cents minus w f => (if minus then ['-'] else []) ++ w ++ '.' :: f
  | .whole n => n
  | .fraction n d => n ++ '/' :: d

/-- The tone that is meant. -/
def Written.tone : Written → Tone
  | .cents minus w f =>
    .cents ((if minus then -1 else 1) * ((decimal w : ℚ) + (decimal f : ℚ) / 10 ^ f.length))
  | .whole n => .ratio (decimal n) 1
  | .fraction n d => .ratio (decimal n) (decimal d)

def Digits (s : Text) : Prop := ∀ c ∈ s, isDigit c = true

/-- A well written tone: there are digits, and the numbers of a ratio are between 1 and 2147483647. -/
def Written.Good : Written → Prop
  | .cents _ w f => Digits w ∧ Digits f ∧ ¬(w = [] ∧ f = [])
  | .whole n => Digits n ∧ 0 < decimal n ∧ decimal n ≤ 2147483647
  | .fraction n d => Digits n ∧ Digits d ∧ 0 < decimal n ∧ decimal n ≤ 2147483647 ∧ 0 < decimal d ∧ decimal d ≤ 2147483647

/-- Text after a tone that the reader does not confuse with it. -/
def Written.Tail (w : Written) (tail : Text) : Prop :=
  match w with
  | .cents _ _ _ => ∀ c, tail.head? = some c → isDigit c = false ∧ c ≠ 'e' ∧ c ≠ 'E'
  | _ => '.' ∉ tail ∧ '/' ∉ tail ∧ ∀ c, tail.head? = some c → isDigit c = false

/-- A line with a tone: spaces or tabs, the tone, and further text. -/
inductive ToneLine (w : Written) : Text → Prop where
  | mk (pad tail : Text) : (∀ c ∈ pad, c = ' ' ∨ c = '\t') → w.Good → w.Tail tail → ToneLine w (pad ++ w.text ++ tail)

/-- A comment, or among the tones an empty line. -/
def Comment (line : Text) : Prop := line.head? = some '!'

/-- Lines with the given tones, with comments and empty lines between them. -/
inductive ToneLines : List Written → List Text → Prop where
  | nil : ToneLines [] []
  | comment (l : Text) : Comment l ∨ l = [] → ToneLines ws ls → ToneLines ws (l :: ls)
  | tone (l : Text) : ToneLine w l → ToneLines ws ls → ToneLines (w :: ws) (l :: ls)

/-- A line with a number: spaces or tabs, digits and further text. -/
inductive CountLine (n : Nat) : Text → Prop where
  | mk (pad ds tail : Text) : (∀ c ∈ pad, c = ' ' ∨ c = '\t') → Digits ds → ds ≠ [] → decimal ds = n →
      (∀ c, tail.head? = some c → isDigit c = false) → CountLine n (pad ++ ds ++ tail)

/-- The lines of a Scala file: comments, the description, comments, the number of tones, the tones, and anything after. -/
inductive Layout (description : Text) (ws : List Written) : List Text → Prop where
  | mk (c1 c2 : List Text) (count : Text) (tones rest : List Text) :
      (∀ l ∈ c1, Comment l) → ¬Comment description → (∀ l ∈ c2, Comment l) →
      CountLine ws.length count → ToneLines ws tones →
      Layout description ws (c1 ++ description :: c2 ++ count :: tones ++ rest)

/-- The text of lines: each is ended by a newline; for the last it may be missing if the line is not empty. -/
inductive TextOf : List Text → Text → Prop where
  | nil : TextOf [] []
  | last (l : Text) : l ≠ [] → '\n' ∉ l → TextOf [l] l
  | cons (l : Text) : '\n' ∉ l → TextOf ls s → TextOf (l :: ls) (l ++ '\n' :: s)

/-! ### Lemmas -/

theorem splitLines_of (h : TextOf ls s) : splitLines s = ls := by
  induction h with
  | nil => rfl
  | last l hl hn =>
    induction l with
    | nil => exact absurd rfl hl
    | cons c l ih =>
      simp only [List.mem_cons, not_or] at hn
      rw [splitLines, if_neg (fun h => hn.1 h.symm)]
      cases l with
      | nil => rfl
      | cons c' l' => rw [ih (by simp) (by simpa using hn.2)]
  | cons l hn _ ih =>
    induction l with
    | nil => simp [splitLines, ih]
    | cons c l ih' =>
      simp only [List.mem_cons, not_or] at hn
      rw [List.cons_append, splitLines, if_neg (fun h => hn.1 h.symm), ih' hn.2]

theorem digitsVal_acc (s : Text) (a : Nat) :
    s.foldl (fun a c => 10 * a + (c.toNat - 48)) a = a * 10 ^ s.length + decimal s := by
  induction s generalizing a with
  | nil => simp [decimal]
  | cons c s ih => rw [List.foldl_cons, ih, decimal, List.length_cons, pow_succ]; ring

theorem digitsVal_eq (s : Text) : digitsVal s = decimal s := by
  rw [digitsVal, digitsVal_acc]; simp

theorem decimal_append (a b : Text) : decimal (a ++ b) = decimal a * 10 ^ b.length + decimal b := by
  induction a with
  | nil => simp [decimal]
  | cons c a ih => rw [List.cons_append, decimal, ih, decimal, List.length_append, pow_add]; ring

theorem takeWhile_digits {ds tail : Text} (h : Digits ds) (ht : ∀ c, tail.head? = some c → isDigit c = false) :
    (ds ++ tail).takeWhile isDigit = ds ∧ (ds ++ tail).dropWhile isDigit = tail := by
  induction ds with
  | nil =>
    cases tail with
    | nil => simp
    | cons c t => simp [ht c rfl]
  | cons d ds ih =>
    have := ih fun c hc => h c (List.mem_cons_of_mem _ hc)
    simp [h d (List.mem_cons_self ..), this]

theorem dropWhile_pad {pad r : Text} (h : ∀ c ∈ pad, c = ' ' ∨ c = '\t') (hr : ∀ c, r.head? = some c → isSpace c = false) :
    (pad ++ r).dropWhile isSpace = r := by
  induction pad with
  | nil =>
    cases r with
    | nil => simp
    | cons c t => simp [hr c rfl]
  | cons d ds ih =>
    have := ih fun c hc => h c (List.mem_cons_of_mem _ hc)
    have hd : isSpace d = true := by
      rcases h d (List.mem_cons_self ..) with e | e <;> subst e <;> decide
    simp [hd, this]

theorem digit_not_space {c : Char} (h : isDigit c = true) : isSpace c = false := by
  have h1 : '0' ≤ c ∧ c ≤ '9' := by simpa [isDigit] using h
  have h2 : ('0' : Char).toNat ≤ c.toNat := h1.1
  have key : ∀ x : Char, x.toNat < 48 → c ≠ x := by
    intro x hx e; subst e
    have : ('0' : Char).toNat = 48 := rfl
    omega
  simp only [isSpace, Bool.or_eq_false_iff, decide_eq_false_iff_not]
  exact ⟨⟨⟨⟨⟨key _ (by decide), key _ (by decide)⟩, key _ (by decide)⟩, key _ (by decide)⟩, key _ (by decide)⟩,
    key _ (by decide)⟩

theorem digit_ne {c x : Char} (h : isDigit c = true) (hx : isDigit x = false) : c ≠ x := by
  intro e; subst e; rw [h] at hx; cases hx

theorem sign_digit {ds tail : Text} (h : Digits ds) (h0 : ds ≠ []) : sign (ds ++ tail) = (false, ds ++ tail) := by
  cases ds with
  | nil => exact absurd rfl h0
  | cons c ds =>
    have hc := h c (List.mem_cons_self ..)
    have h1 := digit_ne hc (x := '-') (by decide)
    have h2 := digit_ne hc (x := '+') (by decide)
    rw [List.cons_append, sign.eq_def]
    split
    · rename_i e; exact absurd (List.cons.inj e).1 h1
    · rename_i e; exact absurd (List.cons.inj e).1 h2
    · rfl

theorem atoi_digits {pad ds tail : Text} (hp : ∀ c ∈ pad, c = ' ' ∨ c = '\t') (hd : Digits ds) (h0 : ds ≠ [])
    (ht : ∀ c, tail.head? = some c → isDigit c = false) (hm : decimal ds ≤ 2147483647) :
    atoi (pad ++ ds ++ tail) = some ((decimal ds : ℕ) : ℤ) := by
  have e : (pad ++ ds ++ tail).dropWhile isSpace = ds ++ tail := by
    rw [List.append_assoc]
    refine dropWhile_pad hp fun c hc => ?_
    cases ds with
    | nil => exact absurd rfl h0
    | cons d ds =>
      simp at hc; subst hc
      exact digit_not_space (hd _ (List.mem_cons_self ..))
  rw [atoi]
  simp only [e, sign_digit hd h0, (takeWhile_digits hd ht).1, digitsVal_eq, Bool.false_eq_true, if_false]
  rw [if_pos (by omega)]

theorem decimal_pos_ne {ds : Text} (h : 0 < decimal ds) : ds ≠ [] := by
  intro e; subst e; simp [decimal] at h

theorem exponent_tail {tail : Text} (h : ∀ c, tail.head? = some c → c ≠ 'e' ∧ c ≠ 'E') : exponent tail = some 0 := by
  cases tail with
  | nil => rfl
  | cons c s =>
    have := h c rfl
    rw [exponent, if_neg (by tauto)]

theorem atof_core {neg : Bool} {r0 w f tail : Text} (hw : Digits w) (hf : Digits f) (h0 : ¬(w = [] ∧ f = []))
    (ht : ∀ c, tail.head? = some c → isDigit c = false ∧ c ≠ 'e' ∧ c ≠ 'E')
    (hs : sign (r0.dropWhile isSpace) = (neg, w ++ '.' :: (f ++ tail))) :
    atof r0 = (if neg then -1 else 1) * ((decimal w : ℚ) + (decimal f : ℚ) / 10 ^ f.length) := by
  have h1 := takeWhile_digits (ds := w) (tail := '.' :: (f ++ tail)) hw (by
    intro c hc; simp at hc; subst hc; decide)
  have h2 := takeWhile_digits (ds := f) (tail := tail) hf fun c hc => (ht c hc).1
  rw [atof]
  simp only [hs, h1, h2, h0, if_false, exponent_tail fun c hc => (ht c hc).2, digitsVal_eq, decimal_append, zpow_zero,
    mul_one]
  have hp : (10 : ℚ) ^ f.length ≠ 0 := by positivity
  cases neg <;> simp <;> field_simp
  ring

theorem tone_line (h : ToneLine w l) : toneFromString l = .ok w.tone ∧ l ≠ [] ∧ ¬Comment l := by
  obtain ⟨pad, tail, hp, hg, ht⟩ := h
  have hpad : ∀ c, pad.head? = some c → c ≠ '!' := by
    intro c hc e; subst e
    rcases hp _ (List.mem_of_mem_head? (by simpa using hc)) with e | e <;> revert e <;> decide
  have hbang : ∀ {r : Text}, (∀ c, r.head? = some c → c ≠ '!') → r ≠ [] → pad ++ r ≠ [] ∧ ¬Comment (pad ++ r) := by
    intro r hr h0
    refine ⟨by simp [h0], ?_⟩
    unfold Comment
    cases pad with
    | nil => intro e; exact hr _ e rfl
    | cons c p => intro e; simp at e; exact hpad c (by simp) e
  have hdig : ∀ {ds r : Text}, Digits ds → ds ≠ [] → ∀ c, (ds ++ r).head? = some c → c ≠ '!' := by
    intro ds r hd h0 c hc
    cases ds with
    | nil => exact absurd rfl h0
    | cons d ds => simp at hc; subst hc; exact digit_ne (hd _ (List.mem_cons_self ..)) (by decide)
  have hpnot : ∀ x, x ≠ ' ' → x ≠ '\t' → x ∉ pad := by
    intro x h1 h2 hx
    rcases hp x hx with e | e
    · exact h1 e
    · exact h2 e
  have hdnot : ∀ {ds : Text} {x : Char}, Digits ds → isDigit x = false → x ∉ ds := by
    intro ds x hd hx hm
    rw [hd x hm] at hx; cases hx
  cases w with
  | cents minus w f =>
    obtain ⟨hw, hf, h0⟩ := hg
    have hdot : '.' ∈ pad ++ (Written.cents minus w f).text ++ tail := by simp [Written.text]
    refine ⟨?_, ?_⟩
    · rw [toneFromString, if_pos hdot, Written.tone]
      congr 2
      refine atof_core hw hf h0 ht ?_
      cases minus with
      | true =>
        have e : pad ++ (Written.cents true w f).text ++ tail = pad ++ ('-' :: (w ++ '.' :: (f ++ tail))) := by
          simp [Written.text]
        rw [e, dropWhile_pad hp (by intro c hc; simp at hc; subst hc; decide)]
        rfl
      | false =>
        have e : pad ++ (Written.cents false w f).text ++ tail = pad ++ (w ++ '.' :: (f ++ tail)) := by
          simp [Written.text]
        rw [e]
        cases w with
        | nil =>
          rw [dropWhile_pad hp (by intro c hc; simp at hc; subst hc; decide)]
          rfl
        | cons d w =>
          rw [dropWhile_pad hp (by intro c hc; simp at hc; subst hc; exact digit_not_space (hw _ (List.mem_cons_self ..)))]
          exact sign_digit hw (by simp)
    · rw [List.append_assoc]
      refine hbang ?_ (by cases minus <;> simp [Written.text])
      intro c hc
      cases minus with
      | true => simp [Written.text] at hc; subst hc; decide
      | false =>
        cases w with
        | nil => simp [Written.text] at hc; subst hc; decide
        | cons d w =>
          simp [Written.text] at hc; subst hc
          exact digit_ne (hw _ (List.mem_cons_self ..)) (by decide)
  | whole n =>
    obtain ⟨hn, h1, h2⟩ := hg
    obtain ⟨t1, t2, t3⟩ := ht
    have n0 := decimal_pos_ne h1
    have hdot : '.' ∉ pad ++ (Written.whole n).text ++ tail := by
      simp only [Written.text, List.mem_append, not_or]
      exact ⟨⟨hpnot _ (by decide) (by decide), hdnot hn (by decide)⟩, t1⟩
    have hsl : '/' ∉ pad ++ n ++ tail := by
      simp only [List.mem_append, not_or]
      exact ⟨⟨hpnot _ (by decide) (by decide), hdnot hn (by decide)⟩, t2⟩
    refine ⟨?_, ?_⟩
    · rw [toneFromString, if_neg hdot]
      have e : atSlash (pad ++ n ++ tail) = (pad ++ n ++ tail, none) := by
        rw [atSlash]
        have : (pad ++ n ++ tail).dropWhile (· ≠ '/') = [] := by
          rw [List.dropWhile_eq_nil_iff]
          intro x hx
          simp only [ne_eq, decide_not, Bool.not_eq_eq_eq_not, Bool.not_true, decide_eq_false_iff_not]
          rintro rfl; exact hsl hx
        rw [this]
      simp only [Written.text, e, atoi_digits hp hn n0 t3 h2, denominator]
      rw [if_neg (by omega)]
      rfl
    · rw [List.append_assoc]
      exact hbang (hdig hn n0) (by simp [Written.text, n0])
  | fraction n d =>
    obtain ⟨hn, hd, h1, h2, h3, h4⟩ := hg
    obtain ⟨t1, t2, t3⟩ := ht
    have n0 := decimal_pos_ne h1
    have d0 := decimal_pos_ne h3
    have hdot : '.' ∉ pad ++ (Written.fraction n d).text ++ tail := by
      simp only [Written.text, List.mem_append, List.mem_cons, not_or]
      exact ⟨⟨hpnot _ (by decide) (by decide), hdnot hn (by decide), by decide, hdnot hd (by decide)⟩, t1⟩
    have hsl : ∀ x ∈ pad ++ n, decide (x ≠ '/') = true := by
      intro x hx
      rw [decide_eq_true_iff]
      rintro rfl
      rcases List.mem_append.1 hx with h | h
      · exact hpnot _ (by decide) (by decide) h
      · exact hdnot hn (by decide) h
    refine ⟨?_, ?_⟩
    · rw [toneFromString, if_neg hdot]
      have e : pad ++ (Written.fraction n d).text ++ tail = (pad ++ n) ++ '/' :: (d ++ tail) := by simp [Written.text]
      have e2 : atSlash (pad ++ (Written.fraction n d).text ++ tail) = (pad ++ n, some (d ++ tail)) := by
        rw [e, atSlash, List.dropWhile_append_of_pos hsl, List.takeWhile_append_of_pos hsl]
        simp
      have a1 : atoi (pad ++ n) = some (decimal n : ℤ) := by
        have := atoi_digits (tail := []) hp hn n0 (by simp) h2
        simpa using this
      have a2 : atoi (d ++ tail) = some (decimal d : ℤ) := by
        have := atoi_digits (pad := []) (by simp) hd d0 t3 h4
        simpa using this
      simp only [e2, a1, denominator, a2]
      rw [if_neg (by omega)]
      rfl
    · rw [List.append_assoc]
      refine hbang ?_ (by simp [Written.text])
      have : (Written.fraction n d).text ++ tail = n ++ ('/' :: d ++ tail) := by simp [Written.text]
      rw [this]
      exact hdig hn n0

theorem readLines_comments (r : Reader) (c rest : List Text) (h : ∀ l ∈ c, Comment l) :
    readLines r (c ++ rest) = readLines r rest := by
  induction c with
  | nil => rfl
  | cons l c ih =>
    have hl : l.head? = some '!' := h l (List.mem_cons_self ..)
    rw [List.cons_append, readLines, readLine]
    have : skipped r l = true := by simp [skipped, hl]
    rw [if_pos this]
    exact ih fun x hx => h x (List.mem_cons_of_mem _ hx)

theorem readLines_trailing (r : Reader) (hr : r.phase = .trailing) (ls : List Text) : readLines r ls = .ok r := by
  induction ls with
  | nil => rfl
  | cons l ls ih =>
    have : readLine r l = .ok r := by
      rw [readLine]
      split
      · rfl
      · simp [hr]
    rw [readLines, this]
    exact ih

/-- Reading the lines of the tones. -/
theorem readLines_tones (h : ToneLines ws ls) (r : Reader) (rest : List Text)
    (hc : r.count = (r.tones.length + ws.length : ℕ)) (hp : r.phase = if ws = [] then Phase.trailing else Phase.note) :
    readLines r (ls ++ rest) =
      .ok { r with tones := r.tones ++ ws.map Written.tone, phase := .trailing } := by
  induction h generalizing r with
  | nil =>
    have hr : r.phase = .trailing := by simpa using hp
    rw [List.nil_append, readLines_trailing r hr]
    cases r; simp_all
  | @comment ws ls l hl hls ih =>
    by_cases hw : ws = []
    · have hr : r.phase = .trailing := by simpa [hw] using hp
      rw [readLines_trailing r hr]
      cases r; simp_all
    · have hr : r.phase = .note := by simpa [hw] using hp
      have : skipped r l = true := by
        rcases hl with h | h
        · have : l.head? = some '!' := h
          simp [skipped, this]
        · simp [skipped, h, hr]
      rw [List.cons_append, readLines, readLine, if_pos this]
      exact ih r hc hp
  | @tone w ws ls l hl hls ih =>
    obtain ⟨h1, h2, h3⟩ := tone_line hl
    have hr : r.phase = .note := by simpa using hp
    have : skipped r l = false := by
      have h3' : l.head? ≠ some '!' := h3
      simp [skipped, h2, h3']
    rw [List.cons_append, readLines, readLine, if_neg (by simp [this])]
    simp only [hr, h1]
    rw [ih]
    · simp
    · simp only [List.length_append, List.length_cons, List.length_nil, hc]; push_cast; ring
    · simp only [List.length_append, List.length_cons, List.length_nil, hc]
      by_cases hw : ws = []
      · simp [hw]
      · have : ws.length ≠ 0 := by simpa using hw
        rw [if_neg hw, if_neg (by push_cast; omega)]

theorem tone_nonzero {l : Text} {n d : ℤ} (h : toneFromString l = .ok (.ratio n d)) : n ≠ 0 ∧ d ≠ 0 := by
  by_cases hd : '.' ∈ l
  · rw [toneFromString, if_pos hd] at h; cases h
  · rw [toneFromString, if_neg hd] at h
    simp only at h
    generalize atoi (atSlash l).1 = x at h
    generalize denominator (atSlash l).2 = y at h
    cases x with
    | none => cases h
    | some x =>
      cases y with
      | none => cases h
      | some y =>
        simp only at h
        by_cases h0 : x = 0 ∨ y = 0
        · rw [if_pos h0] at h; cases h
        · rw [if_neg h0] at h; cases h; tauto

theorem count_line (h : CountLine n l) (hn : n ≤ 2147483647) : atoi l = some (n : ℤ) ∧ ¬Comment l := by
  obtain ⟨pad, ds, tail, p1, p2, p3, p4, p5⟩ := h
  refine ⟨by rw [← p4]; exact atoi_digits p1 p2 p3 p5 (by omega), ?_⟩
  unfold Comment
  cases pad with
  | nil =>
    cases ds with
    | nil => exact absurd rfl p3
    | cons c ds =>
      simp only [List.nil_append, List.cons_append, List.head?_cons, Option.some.injEq]
      exact digit_ne (p2 c (List.mem_cons_self ..)) (by decide)
  | cons c p =>
    simp only [List.cons_append, List.head?_cons, Option.some.injEq]
    rcases p1 c (List.mem_cons_self ..) with e | e <;> subst e <;> decide

/-! ### Theorems -/

/-- The full claim on reading: a file that is laid out like a Scala file, with one to 64 tones, gives its description and its
tones. The restriction is `Written.Tail`: text after a ratio must not have a period or a slash (see `scl_tail_violated`). -/
theorem scl_read_partial (description : Text) (ws : List Written) (lines : List Text) (text : Text)
    (hl : Layout description ws lines) (ht : TextOf lines text) (h1 : 0 < ws.length) (h64 : ws.length ≤ 64) :
    readSCL text = .ok ⟨description, ws.map Written.tone⟩ := by
  obtain ⟨c1, c2, count, tones, rest, hc1, hd, hc2, hcount, htones⟩ := hl
  have hw : ws ≠ [] := by intro e; subst e; simp at h1
  rw [readSCL, splitLines_of ht]
  have hR : readLines {} (c1 ++ description :: c2 ++ count :: tones ++ rest) =
      .ok { phase := .trailing, description := description, count := (ws.length : ℤ), tones := ws.map Written.tone } := by
    rw [show c1 ++ description :: c2 ++ count :: tones ++ rest = c1 ++ (description :: (c2 ++ (count :: (tones ++ rest)))) by
      simp, readLines_comments _ _ _ hc1, readLines, readLine]
    have s1 : skipped {} description = false := by
      have hd' : description.head? ≠ some '!' := hd
      simp [skipped, hd']
    rw [if_neg (by simp [s1])]
    simp only
    rw [readLines_comments _ _ _ hc2, readLines, readLine]
    obtain ⟨a1, a2⟩ := count_line hcount (by omega)
    have s2 : skipped { phase := .count, description := description } count = false := by
      have : count.head? ≠ some '!' := a2
      rw [skipped, decide_eq_false this]; rfl
    rw [if_neg (by rw [s2]; simp)]
    simp only [a1]
    rw [if_neg (by omega), if_pos (by omega)]
    simp only
    rw [readLines_tones htones]
    · simp
    · simp
    · simp [hw]
  rw [hR]
  simp

theorem readLines_short (h : ToneLines ws ls) (r : Reader) (hc : (r.tones.length + ws.length : ℕ) < r.count)
    (hp : r.phase = .note) : readLines r ls = .ok { r with tones := r.tones ++ ws.map Written.tone } := by
  induction h generalizing r with
  | nil => cases r; simp [readLines]
  | @comment ws ls l hl hls ih =>
    have : skipped r l = true := by
      rcases hl with h | h
      · have : l.head? = some '!' := h
        simp [skipped, this]
      · simp [skipped, h, hp]
    rw [readLines, readLine, if_pos this]
    exact ih r hc hp
  | @tone w ws ls l hl hls ih =>
    obtain ⟨h1, h2, h3⟩ := tone_line hl
    have : skipped r l = false := by
      have h3' : l.head? ≠ some '!' := h3
      simp [skipped, h2, h3']
    simp only [List.length_cons] at hc
    rw [readLines, readLine, if_neg (by simp [this])]
    simp only [hp, h1]
    rw [if_neg (by simp only [List.length_append, List.length_singleton]; push_cast at hc ⊢; omega), ih]
    · simp
    · simp only [List.length_append, List.length_singleton]; push_cast at hc ⊢; omega
    · rfl

/-- A file that announces more tones than it has, or more than 64, is rejected. -/
theorem scl_rejected (description : Text) (ws : List Written) (n : Nat) (c1 c2 tones : List Text) (count text : Text)
    (hc1 : ∀ l ∈ c1, Comment l) (hd : ¬Comment description) (hc2 : ∀ l ∈ c2, Comment l) (hcount : CountLine n count)
    (htones : ToneLines ws tones) (hn : ws.length < n) (hmax : n ≤ 2147483647)
    (ht : TextOf (c1 ++ description :: c2 ++ count :: tones) text) : readSCL text = .throws := by
  rw [readSCL, splitLines_of ht,
    show c1 ++ description :: c2 ++ count :: tones = c1 ++ (description :: (c2 ++ (count :: tones))) by simp,
    readLines_comments _ _ _ hc1, readLines, readLine]
  have s1 : skipped {} description = false := by
    have hd' : description.head? ≠ some '!' := hd
    simp [skipped, hd']
  rw [if_neg (by simp [s1])]
  simp only
  rw [readLines_comments _ _ _ hc2, readLines, readLine]
  obtain ⟨a1, a2⟩ := count_line hcount hmax
  have s2 : skipped { phase := .count, description := description } count = false := by
    have : count.head? ≠ some '!' := a2
    rw [skipped, decide_eq_false this]; rfl
  rw [if_neg (by rw [s2]; simp)]
  simp only [a1]
  by_cases h64 : (n : ℤ) < 0 ∨ (n : ℤ) > 64
  · rw [if_pos h64]
  · rw [if_neg h64, if_pos (by omega)]
    simp only
    rw [readLines_short htones _ (by simp; omega) rfl]
    simp
    omega

/-- Whatever the file: if a scale is read, it has at most 64 tones, and its ratios have no zero in them. -/
theorem scl_bounds (text : Text) (s : Scale) (h : readSCL text = .ok s) :
    s.tones.length ≤ 64 ∧ ∀ n d, Tone.ratio n d ∈ s.tones → n ≠ 0 ∧ d ≠ 0 := by
  have inv : ∀ ls r r', readLines r ls = .ok r' →
      ((r.tones.length : ℤ) ≤ r.count ∧ r.count ≤ 64 ∧ (r.phase = .note → (r.tones.length : ℤ) < r.count) ∧
        (r.phase = .header ∨ r.phase = .count → r.tones = []) ∧
        ∀ n d, Tone.ratio n d ∈ r.tones → n ≠ 0 ∧ d ≠ 0) →
      ((r'.tones.length : ℤ) ≤ r'.count ∧ r'.count ≤ 64 ∧ (r'.phase = .note → (r'.tones.length : ℤ) < r'.count) ∧
        (r'.phase = .header ∨ r'.phase = .count → r'.tones = []) ∧
        ∀ n d, Tone.ratio n d ∈ r'.tones → n ≠ 0 ∧ d ≠ 0) := by
    intro ls
    induction ls with
    | nil => intro r r' h; cases h; exact id
    | cons l ls ih =>
      intro r r' h hi
      rw [readLines] at h
      cases hl : readLine r l with
      | ok r1 =>
        rw [hl] at h
        refine ih r1 r' h ?_
        rw [readLine] at hl
        split at hl
        · cases hl; exact hi
        · split at hl
          · rename_i hph
            cases hl
            refine ⟨hi.1, hi.2.1, by simp, ?_, hi.2.2.2.2⟩
            intro _; exact hi.2.2.2.1 (Or.inl hph)
          · rename_i hph
            split at hl
            · cases hl
            · split at hl
              · cases hl
              · rename_i c _ hc
                cases hl
                have ht := hi.2.2.2.1 (Or.inr hph)
                simp only [ht]
                refine ⟨by simp; omega, by omega, ?_, ?_, by simp⟩
                · intro hn
                  simp only [List.length_nil, Nat.cast_zero]
                  by_contra h0
                  rw [if_neg (by omega)] at hn; cases hn
                · intro _; trivial
          · rename_i hph
            split at hl
            · rename_i t ht
              cases hl
              have hlt := hi.2.2.1 hph
              refine ⟨by simp only [List.length_append, List.length_singleton]; push_cast; omega, hi.2.1, ?_, ?_, ?_⟩
              · intro hn
                simp only at hn ⊢
                by_contra h0
                rw [if_pos (by simp only [List.length_append, List.length_singleton] at h0 ⊢; push_cast at h0 ⊢; omega)] at hn
                cases hn
              · intro hn
                simp only at hn
                split at hn <;> simp at hn
              · intro n d hm
                simp only [List.mem_append, List.mem_singleton] at hm
                rcases hm with hm | hm
                · exact hi.2.2.2.2 n d hm
                · subst hm
                  exact tone_nonzero ht
            · cases hl
            · cases hl
          · cases hl; exact hi
      | throws => rw [hl] at h; cases h
      | undef => rw [hl] at h; cases h
  rw [readSCL] at h
  split at h
  · rename_i r hr
    split at h
    · cases h
    · split at h
      · cases h
      · cases h
        obtain ⟨h1, h2, -, -, h5⟩ := inv _ _ _ hr ⟨by simp, by simp, by simp, by simp, by simp⟩
        exact ⟨by simp only; omega, h5⟩
  · cases h
  · cases h

/-- Without its restriction the claim is false: the format says that text after a tone is not part of it, but a ratio followed by
a text with a period is read as a number of cents, and a whole number followed by a text with a slash makes the file invalid. -/
theorem scl_tail_violated :
    toneFromString "5/4 maj. third".toList = .ok (.cents 5) ∧ toneFromString "2 octave/period".toList = .throws := by
  constructor
  · have : atof "5/4 maj. third".toList = 5 := by decide +kernel
    rw [toneFromString, if_pos (by decide), this]
  · decide +kernel

end Verif.Tuning
