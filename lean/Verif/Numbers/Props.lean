import Verif.Numbers.Model
import Verif.Opcode.Names
import Mathlib.Tactic.Ring
import Mathlib.Tactic.FieldSimp
import Mathlib.Tactic.NormNum

/-!
C144: numbers with a fraction in the values of opcodes are read as they are written.
-/
namespace Verif.Numbers
open Verif.Opcode

/-! ### Specification -/

/-- Nothing but digits. -/
def Digits (s : Text) : Prop := ∀ c ∈ s, isDigit c = true

instance (s : Text) : Decidable (Digits s) := by unfold Digits; infer_instance

/-- The point and the digits after it. -/
def fracText : Option Text → Text
  | none => []
  | some b => '.' :: b

/-- The exponent. -/
def expText : Option (Text × Text) → Text
  | none => []
  | some x => 'e' :: (x.1 ++ x.2)

/-- A number as it is written: a sign, digits, a point with digits, an exponent with its own sign. -/
structure Num where
  sign : Text
  whole : Text
  frac : Option Text
  exp : Option (Text × Text)

/-- Its text. -/
def Num.text (n : Num) : Text :=
  n.sign ++ (n.whole ++ (fracText n.frac ++
    expText n.exp))

/-- The signs. -/
def signs : List Text := [[], ['+'], ['-']]

/-- It is a number: there is a digit before or after the point, and one in the exponent. -/
structure Num.Ok (n : Num) : Prop where
  sign : n.sign ∈ signs
  whole : Digits n.whole
  frac : ∀ b, n.frac = some b → Digits b
  nonempty : n.whole ≠ [] ∨ n.frac.getD [] ≠ []
  exp : ∀ x, n.exp = some x → x.1 ∈ signs ∧ x.2 ≠ [] ∧ Digits x.2

/-- Minus one for a minus sign. -/
def signOf (s : Text) : Int := if s = ['-'] then -1 else 1

/-- What it is worth. -/
def Num.value (n : Num) : ℚ :=
  signOf n.sign * ((natVal n.whole : ℚ) + (natVal (n.frac.getD []) : ℚ) / 10 ^ (n.frac.getD []).length) *
    (10 : ℚ) ^ (match n.exp with | none => (0 : Int) | some x => signOf x.1 * (natVal x.2 : Int))

/-- The text after the number does not go on with it. -/
def Stops (n : Num) (rest : Text) : Prop :=
  ∀ c, rest.head? = some c → isDigit c = false ∧ (n.exp = none → c ≠ 'e' ∧ (n.frac = none → c ≠ '.'))

/-! ### Lemmas -/

theorem natVal_append (a b : Text) : natVal (a ++ b) = natVal a * 10 ^ b.length + natVal b := by
  unfold natVal
  rw [List.foldl_append]
  generalize a.foldl (fun n c => 10 * n + digitVal c) 0 = k
  have : ∀ (b : Text) (k j : Nat), b.foldl (fun n c => 10 * n + digitVal c) (k + j) = k * 10 ^ b.length + b.foldl (fun n c => 10 * n + digitVal c) j := by
    intro b
    induction b with
    | nil => intro k j; simp
    | cons c b ih =>
      intro k j
      rw [List.foldl_cons, List.foldl_cons, show 10 * (k + j) + digitVal c = 10 * k + (10 * j + digitVal c) by ring, ih, List.length_cons]
      ring
  simpa using this b k 0

theorem head_not {s : Text} {c : Char} (h : ∀ d, s.head? = some d → d ≠ c) (t : Text) : s ≠ c :: t := by
  intro e; exact h c (by rw [e]; rfl) rfl

theorem takeSign_app {g t : Text} (hg : g ∈ signs) (h : ∀ c, t.head? = some c → c ≠ '+' ∧ c ≠ '-') : takeSign (g ++ t) = (g, t) := by
  simp only [signs, List.mem_cons, List.not_mem_nil, or_false] at hg
  rcases hg with rfl | rfl | rfl
  · rw [List.nil_append]
    cases t with
    | nil => rfl
    | cons c u =>
      have hc := h c rfl
      unfold takeSign
      split
      · rename_i e; injection e with e1 e2; exact absurd e1 hc.1
      · rename_i e; injection e with e1 e2; exact absurd e1 hc.2
      · rfl
  · rfl
  · rfl

theorem splitSign_app {g t : Text} (hg : g ∈ signs) (h : ∀ c, t.head? = some c → c ≠ '+' ∧ c ≠ '-') :
    splitSign (g ++ t) = (decide (g = ['-']), t) := by
  simp only [signs, List.mem_cons, List.not_mem_nil, or_false] at hg
  rcases hg with rfl | rfl | rfl
  · rw [List.nil_append]
    cases t with
    | nil => rfl
    | cons c u =>
      have hc := h c rfl
      unfold splitSign
      split
      · rename_i e; injection e with e1 e2; exact absurd e1 hc.1
      · rename_i e; injection e with e1 e2; exact absurd e1 hc.2
      · rfl
  · rfl
  · rfl

theorem digit_not_sign {c : Char} (h : isDigit c = true) : c ≠ '+' ∧ c ≠ '-' ∧ c ≠ '.' ∧ c ≠ 'e' ∧ c ≠ 'E' := by
  refine ⟨?_, ?_, ?_, ?_, ?_⟩ <;> (rintro rfl; revert h; decide)

/-- What follows the whole part. -/
def afterWhole (n : Num) (rest : Text) : Text :=
  fracText n.frac ++ (expText n.exp ++ rest)

/-- What follows the fraction. -/
def afterFrac (n : Num) (rest : Text) : Text := expText n.exp ++ rest

theorem text_app (n : Num) (rest : Text) : n.text ++ rest = n.sign ++ (n.whole ++ afterWhole n rest) := by
  unfold Num.text afterWhole
  simp only [List.append_assoc]

theorem afterFrac_head {n : Num} {rest : Text} (hs : Stops n rest) : ∀ c, (afterFrac n rest).head? = some c →
    isDigit c = false ∧ (n.frac = none → c ≠ '.') := by
  intro c hc
  unfold afterFrac at hc
  cases he : n.exp with
  | none =>
    rw [he] at hc
    exact ⟨(hs c hc).1, ((hs c hc).2 he).2⟩
  | some x =>
    rw [he] at hc
    simp only [fracText, expText, List.cons_append, List.head?_cons, Option.some.injEq] at hc
    subst hc
    exact ⟨by decide, fun _ => by decide⟩

theorem afterWhole_head {n : Num} {rest : Text} (hs : Stops n rest) : ∀ c, (afterWhole n rest).head? = some c → isDigit c = false := by
  intro c hc
  unfold afterWhole at hc
  cases hf : n.frac with
  | none =>
    rw [hf] at hc
    exact (afterFrac_head hs c hc).1
  | some b =>
    rw [hf] at hc
    simp only [fracText, expText, List.cons_append, List.head?_cons, Option.some.injEq] at hc
    subst hc; decide

theorem number_head {n : Num} (hn : n.Ok) (rest : Text) : ∀ c, (n.whole ++ afterWhole n rest).head? = some c → c ≠ '+' ∧ c ≠ '-' := by
  intro c hc
  cases hw : n.whole with
  | cons d w =>
    rw [hw] at hc
    simp only [fracText, expText, List.cons_append, List.head?_cons, Option.some.injEq] at hc
    subst hc
    have := digit_not_sign (hn.whole d (by rw [hw]; exact List.mem_cons_self))
    exact ⟨this.1, this.2.1⟩
  | nil =>
    rw [hw] at hc
    have h2 := hn.nonempty
    rw [hw] at h2
    cases hf : n.frac with
    | none => rw [hf] at h2; simp at h2
    | some b =>
      unfold afterWhole at hc
      rw [hf] at hc
      simp only [fracText, List.nil_append, List.cons_append, List.head?_cons, Option.some.injEq] at hc
      subst hc
      decide

theorem takeFraction_app {n : Num} (hn : n.Ok) {rest : Text} (hs : Stops n rest) :
    takeFraction (afterWhole n rest) = (fracText n.frac, afterFrac n rest) := by
  have hd := afterFrac_head hs
  unfold afterWhole
  cases hf : n.frac with
  | none =>
    change takeFraction (afterFrac n rest) = ([], afterFrac n rest)
    rw [takeFraction]
    intro t e
    exact head_not (fun d hd' => (hd d hd').2 hf) t e
  | some b =>
    change ('.' :: (b ++ afterFrac n rest).takeWhile isDigit, (b ++ afterFrac n rest).dropWhile isDigit) = _
    have := takeWhile_append_stop (p := isDigit) b (afterFrac n rest) (hn.frac b hf) (fun c hc => (hd c hc).1)
    rw [this.1, this.2]; rfl

theorem atofFraction_app {n : Num} (hn : n.Ok) {rest : Text} (hs : Stops n rest) :
    atofFraction (afterWhole n rest) = (n.frac.getD [], afterFrac n rest) := by
  have hd := afterFrac_head hs
  unfold afterWhole
  cases hf : n.frac with
  | none =>
    change atofFraction (afterFrac n rest) = ([], afterFrac n rest)
    rw [atofFraction]
    intro t e
    exact head_not (fun d hd' => (hd d hd').2 hf) t e
  | some b =>
    change ((b ++ afterFrac n rest).takeWhile isDigit, (b ++ afterFrac n rest).dropWhile isDigit) = _
    have := takeWhile_append_stop (p := isDigit) b (afterFrac n rest) (hn.frac b hf) (fun c hc => (hd c hc).1)
    rw [this.1, this.2]; rfl

theorem takeExponent_app {n : Num} (hn : n.Ok) {rest : Text} (hs : Stops n rest) :
    takeExponent (afterFrac n rest) = (expText n.exp, rest) := by
  unfold afterFrac
  cases he : n.exp with
  | none =>
    change takeExponent rest = ([], rest)
    have hd : ∀ d, rest.head? = some d → d ≠ 'e' := fun d hd => ((hs d hd).2 he).1
    rw [takeExponent]
    · intro c t e; exact head_not hd _ e
    · intro e; exact head_not hd _ e
  | some x =>
    obtain ⟨h1, h2, h3⟩ := hn.exp x he
    have stop : ∀ d : Text, Digits d → (d ++ rest).takeWhile isDigit = d ∧ (d ++ rest).dropWhile isDigit = rest := fun d hd =>
      takeWhile_append_stop (p := isDigit) d rest hd (fun c hc => (hs c hc).1)
    obtain ⟨g, d⟩ := x
    simp only at h1 h2 h3 ⊢
    simp only [signs, List.mem_cons, List.not_mem_nil, or_false] at h1
    rcases h1 with rfl | rfl | rfl
    · cases d with
      | nil => exact absurd rfl h2
      | cons c d =>
        have hc := h3 c List.mem_cons_self
        have := stop d (fun k hk => h3 k (List.mem_cons_of_mem _ hk))
        simp only [expText, List.nil_append, List.cons_append]
        rw [takeExponent, if_pos (Or.inr (Or.inr hc)), this.1, this.2]
    · have := stop d h3
      simp only [expText, List.nil_append, List.cons_append]
      rw [takeExponent, if_pos (Or.inl rfl), this.1, this.2]
    · have := stop d h3
      simp only [expText, List.nil_append, List.cons_append]
      rw [takeExponent, if_pos (Or.inr (Or.inl rfl)), this.1, this.2]

theorem leading_app {n : Num} (hn : n.Ok) {rest : Text} (hs : Stops n rest) : leadingFloat (n.text ++ rest) = n.text := by
  unfold leadingFloat
  rw [text_app, takeSign_app hn.sign (number_head hn rest)]
  have hw := takeWhile_append_stop (p := isDigit) n.whole (afterWhole n rest) hn.whole (afterWhole_head hs)
  simp only [hw.1, hw.2, takeFraction_app hn hs, takeExponent_app hn hs]
  rfl

theorem atofExponent_app {n : Num} (hn : n.Ok) :
    atofExponent (afterFrac n []) = some (match n.exp with | none => (0 : Int) | some x => signOf x.1 * (natVal x.2 : Int)) := by
  unfold afterFrac
  cases he : n.exp with
  | none => rfl
  | some x =>
    obtain ⟨h1, h2, h3⟩ := hn.exp x he
    have hh : ∀ c, x.2.head? = some c → c ≠ '+' ∧ c ≠ '-' := fun c hc =>
      let r := digit_not_sign (h3 c (List.mem_of_mem_head? hc))
      ⟨r.1, r.2.1⟩
    change atofExponent ('e' :: ((x.1 ++ x.2) ++ [])) = _
    rw [List.append_nil, atofExponent, if_pos (Or.inl rfl)]
    rw [splitSign_app h1 hh]
    have hall : x.2.all isDigit = true := List.all_eq_true.mpr h3
    simp only [ne_eq, h2, not_false_eq_true, hall, and_self, if_true]
    unfold signOf
    by_cases hg : x.1 = ['-'] <;> simp [hg]

theorem atof_text {n : Num} (hn : n.Ok) : simpleAtof n.text = some n.value := by
  have hs : Stops n [] := by intro c hc; simp at hc
  unfold simpleAtof
  rw [← List.append_nil n.text, text_app, splitSign_app hn.sign (number_head hn [])]
  have hw := takeWhile_append_stop (p := isDigit) n.whole (afterWhole n []) hn.whole (afterWhole_head hs)
  simp only [hw.1, hw.2, atofFraction_app hn hs, atofExponent_app hn]
  rw [if_neg (by intro h; rcases hn.nonempty with h' | h' <;> [exact h' h.1; exact h' h.2])]
  congr 1
  unfold Num.value
  rw [natVal_append, zpow_sub₀ (by norm_num : (10 : ℚ) ≠ 0), zpow_natCast]
  unfold signOf
  push_cast
  by_cases hg : n.sign = ['-']
  · simp only [hg, decide_true, if_true]
    field_simp
  · simp only [hg, decide_false, if_false, Bool.false_eq_true]
    field_simp

/-! ### Theorems -/

/-- **A value that begins with a number is that number**, with or without sign, fraction and exponent, and whatever follows it, as long as
that does not look like more of the number. -/
theorem number_read (n : Num) (hn : n.Ok) (rest : Text) (hs : Stops n rest) : readLeadingFloat (n.text ++ rest) = some n.value := by
  unfold readLeadingFloat
  rw [leading_app hn hs, atof_text hn]

theorem takeSign_split (s : Text) : s = (takeSign s).1 ++ (takeSign s).2 ∧ (takeSign s).1 ∈ signs := by
  unfold takeSign
  split
  · exact ⟨rfl, by simp [signs]⟩
  · exact ⟨rfl, by simp [signs]⟩
  · exact ⟨rfl, by simp [signs]⟩

/-- **Nothing else is read as a number**: when a value is found, the text begins with that number, up to where it ends. -/
theorem number_only (s : Text) (v : ℚ) (h : readLeadingFloat s = some v) :
    ∃ (n : Num) (rest : Text), n.Ok ∧ Stops n rest ∧ s = n.text ++ rest ∧ v = n.value := by
  -- the parts of the text
  obtain ⟨e1, hsign⟩ := takeSign_split s
  generalize hg : (takeSign s).1 = g at *
  generalize ht : (takeSign s).2 = t at *
  obtain ⟨a, t2, e2, ha, ha2⟩ : ∃ a t2, t = a ++ t2 ∧ Digits a ∧ (t.takeWhile isDigit = a ∧ t.dropWhile isDigit = t2) :=
    ⟨_, _, (List.takeWhile_append_dropWhile (p := isDigit) (l := t)).symm, takeWhile_all isDigit t, rfl, rfl⟩
  have hh2 : ∀ c, t2.head? = some c → isDigit c = false := by
    intro c hc
    exact dropWhile_head isDigit t c (ha2.2.symm ▸ hc)
  have hleft : leadingFloat s = g ++ (a ++ ((takeFraction t2).1 ++ (takeExponent (takeFraction t2).2).1)) := by
    unfold leadingFloat
    simp only [hg, ht, ha2.1, ha2.2]
  -- the fraction
  obtain ⟨f, t3, e3, hf, hf2, hfst⟩ : ∃ (f : Option Text) (t3 : Text), t2 = fracText f ++ t3 ∧
      (∀ b, f = some b → Digits b) ∧ ((takeFraction t2).1 = fracText f ∧ (takeFraction t2).2 = t3) ∧
      (∀ c, t3.head? = some c → isDigit c = false ∧ (f = none → c ≠ '.')) := by
    unfold takeFraction
    split
    · rename_i u
      refine ⟨some (u.takeWhile isDigit), u.dropWhile isDigit, ?_, ?_, ⟨rfl, rfl⟩, ?_⟩
      · simp [fracText, List.takeWhile_append_dropWhile]
      · intro b hb; cases hb; exact takeWhile_all isDigit u
      · intro c hc; exact ⟨dropWhile_head isDigit u c hc, fun h => by cases h⟩
    · rename_i hne
      refine ⟨none, t2, rfl, by simp, ⟨rfl, rfl⟩, ?_⟩
      intro c hc
      refine ⟨hh2 c hc, fun _ hd => ?_⟩
      subst hd
      cases t2 with
      | nil => simp at hc
      | cons d u =>
        simp only [List.head?_cons, Option.some.injEq] at hc
        subst hc; exact hne u rfl
  rw [hf2.1, hf2.2] at hleft
  unfold readLeadingFloat at h
  -- the exponent
  obtain ⟨x, t4, e4, hx⟩ : ∃ (x : Text) (t4 : Text), t3 = x ++ t4 ∧ takeExponent t3 = (x, t4) := by
    refine ⟨(takeExponent t3).1, (takeExponent t3).2, ?_, rfl⟩
    unfold takeExponent
    split
    · split
      · simp [List.takeWhile_append_dropWhile]
      · rfl
    · rfl
    · rfl
  rw [hx] at hleft
  simp only at hleft
  -- a number with no exponent gives access to the exponent read
  have hx3 : x = [] ∨ ∃ u, x = 'e' :: u := by
    unfold takeExponent at hx
    split at hx
    · split at hx
      · cases hx; exact Or.inr ⟨_, rfl⟩
      · cases hx; exact Or.inr ⟨_, rfl⟩
    · cases hx; exact Or.inr ⟨_, rfl⟩
    · cases hx; exact Or.inl rfl
  have hxh : ∀ c, x.head? = some c → isDigit c = false ∧ c ≠ '.' ∧ c ≠ '+' ∧ c ≠ '-' := by
    intro c hc
    rcases hx3 with rfl | ⟨u, rfl⟩
    · simp at hc
    · simp only [List.head?_cons, Option.some.injEq] at hc
      subst hc; decide
  rw [hleft] at h
  unfold simpleAtof at h
  have hpart1 : ∀ c, (fracText f ++ x).head? = some c → isDigit c = false := by
    intro c hc
    cases f with
    | none => exact (hxh c (by simpa [fracText] using hc)).1
    | some b =>
      simp only [fracText, expText, List.cons_append, List.head?_cons, Option.some.injEq] at hc
      subst hc; decide
  have hpart : ∀ c, (a ++ (fracText f ++ x)).head? = some c → c ≠ '+' ∧ c ≠ '-' := by
    intro c hc
    cases a with
    | cons d w =>
      simp only [fracText, expText, List.cons_append, List.head?_cons, Option.some.injEq] at hc
      subst hc
      have := digit_not_sign (ha d List.mem_cons_self)
      exact ⟨this.1, this.2.1⟩
    | nil =>
      cases f with
      | none => exact (hxh c (by simpa [fracText] using hc)).2.2
      | some b =>
        simp only [fracText, List.nil_append, List.cons_append, List.head?_cons, Option.some.injEq] at hc
        subst hc; decide
  rw [splitSign_app hsign hpart] at h
  have hw := takeWhile_append_stop (p := isDigit) a _ ha hpart1
  simp only [hw.1, hw.2] at h
  have hfr : atofFraction (fracText f ++ x) = (f.getD [], x) := by
    cases f with
    | none =>
      simp only [fracText, List.nil_append, Option.getD_none]
      rw [atofFraction]
      intro u e
      exact (hxh '.' (by rw [e]; rfl)).2.1 rfl
    | some b =>
      change ((b ++ x).takeWhile isDigit, (b ++ x).dropWhile isDigit) = _
      have := takeWhile_append_stop (p := isDigit) b x (hf b rfl) (fun c hc => (hxh c hc).1)
      rw [this.1, this.2]; rfl
  rw [hfr] at h
  simp only at h
  have hsome : a ≠ [] ∨ f.getD [] ≠ [] := by
    by_contra hcon
    push Not at hcon
    rw [if_pos hcon] at h
    cases h
  -- the exponent is a number
  obtain ⟨ex, hex, hexok, hexst⟩ : ∃ ex : Option (Text × Text), x = expText ex ∧
      (∀ y, ex = some y → y.1 ∈ signs ∧ y.2 ≠ [] ∧ Digits y.2) ∧
      (∀ c, t4.head? = some c → isDigit c = false ∧ (ex = none → c ≠ 'e' ∧ (f = none → c ≠ '.'))) := by
    have hexp : atofExponent x ≠ none := by
      intro hn
      rw [hn] at h
      split at h <;> cases h
    unfold takeExponent at hx
    split at hx
    · rename_i c u
      split at hx
      · rename_i hc
        simp only [Prod.mk.injEq] at hx
        obtain ⟨hx1, hx2⟩ := hx
        have stop : ∀ k, t4.head? = some k → isDigit k = false := fun k hk => dropWhile_head isDigit u k (hx2 ▸ hk)
        rcases Decidable.em (isDigit c = true) with hd | hd
        · refine ⟨some ([], c :: u.takeWhile isDigit), hx1.symm, ?_, fun k hk => ⟨stop k hk, fun hn => by cases hn⟩⟩
          intro y hy; cases hy
          refine ⟨by simp [signs], by simp, ?_⟩
          intro k hk
          rcases List.mem_cons.mp hk with rfl | hk
          · exact hd
          · exact takeWhile_all isDigit u k hk
        · have hu : u.takeWhile isDigit ≠ [] := by
            intro hnil
            rw [hnil] at hx1
            rw [← hx1] at hexp
            rcases hc with rfl | rfl | hc
            · exact hexp rfl
            · exact hexp rfl
            · exact hd hc
          refine ⟨some ([c], u.takeWhile isDigit), hx1.symm, ?_, fun k hk => ⟨stop k hk, fun hn => by cases hn⟩⟩
          intro y hy; cases hy
          refine ⟨?_, hu, takeWhile_all isDigit u⟩
          rcases hc with rfl | rfl | hc
          · simp [signs]
          · simp [signs]
          · exact absurd hc hd
      · simp only [Prod.mk.injEq] at hx
        rw [← hx.1] at hexp
        exact absurd rfl hexp
    · simp only [Prod.mk.injEq] at hx
      rw [← hx.1] at hexp
      exact absurd rfl hexp
    · rename_i h1 h2
      simp only [Prod.mk.injEq] at hx
      refine ⟨none, hx.1.symm, by simp, ?_⟩
      intro c hc
      rw [← hx.2] at hc
      refine ⟨(hfst c hc).1, fun _ => ⟨?_, (hfst c hc).2⟩⟩
      rintro rfl
      cases t3 with
      | nil => simp at hc
      | cons d u =>
        simp only [List.head?_cons, Option.some.injEq] at hc
        subst hc
        cases u with
        | nil => exact h2 rfl
        | cons k u => exact h1 k u rfl
  have hok : Num.Ok ⟨g, a, f, ex⟩ := ⟨hsign, ha, hf, hsome, hexok⟩
  have hst : Stops ⟨g, a, f, ex⟩ t4 := hexst
  have hs : s = Num.text ⟨g, a, f, ex⟩ ++ t4 := by
    rw [e1, e2, e3, e4, hex]
    unfold Num.text
    simp only [List.append_assoc]
  refine ⟨⟨g, a, f, ex⟩, t4, hok, hst, hs, ?_⟩
  have hr := number_read _ hok _ hst
  rw [← hs] at hr
  unfold readLeadingFloat at hr
  rw [hleft] at hr
  have hv : simpleAtof (g ++ (a ++ (fracText f ++ x))) = some v := by
    unfold simpleAtof
    rw [splitSign_app hsign hpart]
    simp only [hw.1, hw.2, hfr]
    exact h
  rw [hv] at hr
  exact Option.some.inj hr

/-- **Text that begins with the letter e spoils the number before it**: the letter is taken for an exponent. -/
theorem letter_e_violated : readLeadingFloat "2em".toList = none ∧ readLeadingFloat "2m".toList = some 2 := by
  constructor
  · decide +kernel
  · have := number_read ⟨[], ['2'], none, none⟩ ⟨by decide, by decide, by simp, by simp, by simp⟩ ['m'] (by
      intro c hc
      simp only [List.head?_cons, Option.some.injEq] at hc
      subst hc; decide)
    rw [show "2m".toList = Num.text ⟨[], ['2'], none, none⟩ ++ ['m'] from by decide, this]
    congr 1
    simp [Num.value, signOf, natVal]
    decide

/-- `-1.25e2dB` is -125. -/
example : readLeadingFloat "-1.25e2dB".toList = some (-125) := by
  have := number_read ⟨['-'], ['1'], some ['2', '5'], some ([], ['2'])⟩
    ⟨by decide, by decide, by simp [Digits]; decide, by simp, by simp [signs, Digits]; decide⟩ ['d', 'B'] (by
      intro c hc
      simp only [List.head?_cons, Option.some.injEq] at hc
      subst hc; decide)
  rw [show "-1.25e2dB".toList = Num.text ⟨['-'], ['1'], some ['2', '5'], some ([], ['2'])⟩ ++ ['d', 'B'] from by decide, this]
  congr 1
  have h1 : natVal ['1'] = 1 := by decide
  have h2 : natVal ['2', '5'] = 25 := by decide
  have h3 : natVal ['2'] = 2 := by decide
  simp only [Num.value, signOf, Option.getD_some, h1, h2, h3]
  norm_num

end Verif.Numbers
