import Verif.Messages.Model
import Mathlib.Tactic.Linarith

/-!
# Messages reach the handler their path names
-/

namespace Verif.Messages

/-! ## Specification -/

/-- The value of a decimal number. -/
def decimal : Bytes → Nat
  | [] => 0
  | c :: rest => (c - 48) * 10 ^ rest.length + decimal rest

/-- `Instance pattern path indices`: the path is the pattern with each `&` replaced by a decimal
number below 2³², and these are the numbers. -/
inductive Instance : Bytes → Bytes → List Nat → Prop
  | nil : Instance [] [] []
  | letter (c : Nat) (p w : Bytes) (idx : List Nat) : c ≠ amp → Instance p w idx →
      Instance (c :: p) (c :: w) idx
  | number (d p w : Bytes) (idx : List Nat) : d ≠ [] → (∀ c ∈ d, isDigit c = true) →
      decimal d < 4294967296 → Instance p w idx → Instance (amp :: p) (d ++ w) (decimal d :: idx)

/-- Patterns without digits, and without two `&` in a row. -/
def plain : Bytes → Bool
  | [] => true
  | c :: rest => !isDigit c && (c != amp || rest.head? != some amp) && plain rest

/-! ## Numbers -/

theorem foldl_decimal (d : Bytes) (a : Nat) :
    d.foldl (fun a c => a * 10 + (c - 48)) a = a * 10 ^ d.length + decimal d := by
  induction d generalizing a with
  | nil => simp [decimal]
  | cons c d ih =>
    rw [List.foldl_cons, ih]
    simp only [decimal, List.length_cons]
    rw [Nat.pow_succ]
    have : (a * 10 + (c - 48)) * 10 ^ d.length =
        a * (10 ^ d.length * 10) + (c - 48) * 10 ^ d.length := by
      rw [Nat.add_mul]
      congr 1
      rw [Nat.mul_assoc, Nat.mul_comm 10]
    omega

theorem atoi_iff (d : Bytes) (v : Nat) :
    atoi d = some v ↔ d ≠ [] ∧ decimal d < 4294967296 ∧ v = decimal d := by
  unfold atoi
  by_cases h : d = []
  · simp [h]
  · rw [if_neg h]
    dsimp only
    rw [foldl_decimal, Nat.zero_mul, Nat.zero_add]
    split
    · simp [h, *]
      exact eq_comm
    · simp [h, *]

/-! ## Instances -/

theorem amp_not_digit : isDigit amp = false := by decide

theorem instance_letters (l q w : Bytes) (idx : List Nat) (hl : ∀ c ∈ l, c ≠ amp) :
    Instance (l ++ q) w idx ↔ ∃ w', w = l ++ w' ∧ Instance q w' idx := by
  induction l generalizing w with
  | nil => simp
  | cons c l ih =>
    have hc : c ≠ amp := hl c (by simp)
    have ih := fun w => ih w (fun x hx => hl x (by simp [hx]))
    constructor
    · intro h
      cases h with
      | letter _ _ w _ _ h =>
        obtain ⟨w', rfl, h'⟩ := (ih w).mp h
        exact ⟨w', rfl, h'⟩
      | number _ _ _ _ _ _ _ _ => exact absurd rfl hc
    · rintro ⟨w', rfl, h⟩
      exact .letter c _ _ _ hc ((ih _).mpr ⟨w', rfl, h⟩)

/-- What follows a number is not a digit. -/
def Stops (w : Bytes) : Prop := ∀ c, w.head? = some c → isDigit c = false

theorem stops_after {q w : Bytes} {idx : List Nat} (hq : plain (amp :: q) = true)
    (h : Instance q w idx) : Stops w := by
  intro c hc
  cases h with
  | nil => simp at hc
  | letter c' p w idx hne h =>
    simp at hc
    subst hc
    simp only [plain, Bool.and_eq_true, Bool.not_eq_true'] at hq
    exact hq.2.1.1
  | number d p w idx h1 h2 h3 h4 =>
    simp [plain] at hq

theorem takeWhile_digits {d w : Bytes} (hd : ∀ c ∈ d, isDigit c = true) (hw : Stops w) :
    (d ++ w).takeWhile isDigit = d := by
  induction d with
  | nil =>
    cases w with
    | nil => rfl
    | cons c w =>
      have := hw c rfl
      simp [List.takeWhile_cons, this]
  | cons c d ih =>
    rw [List.cons_append, List.takeWhile_cons, hd c (by simp)]
    simp [ih (fun x hx => hd x (by simp [hx]))]

theorem takeWhile_stops (l : Bytes) : Stops (l.drop (l.takeWhile isDigit).length) := by
  induction l with
  | nil => intro c hc; simp at hc
  | cons a l ih =>
    rw [List.takeWhile_cons]
    cases ha : isDigit a with
    | true => simpa using ih
    | false =>
      intro c hc
      simp at hc
      rw [← hc]
      exact ha

theorem takeWhile_all (l : Bytes) : ∀ c ∈ l.takeWhile isDigit, isDigit c = true := by
  intro c hc
  induction l with
  | nil => simp at hc
  | cons a l ih =>
    rw [List.takeWhile_cons] at hc
    cases ha : isDigit a with
    | true =>
      rw [ha] at hc
      rcases List.mem_cons.mp hc with rfl | h
      · exact ha
      · exact ih h
    | false => rw [ha] at hc; simp at hc

theorem instance_number (q w : Bytes) (idx : List Nat) (hq : plain (amp :: q) = true) :
    Instance (amp :: q) w idx ↔
      ∃ v rest, atoi (w.takeWhile isDigit) = some v ∧ idx = v :: rest ∧
        Instance q (w.drop (w.takeWhile isDigit).length) rest := by
  constructor
  · intro h
    cases h with
    | letter _ _ _ _ hne _ => exact absurd rfl hne
    | number d p w idx h1 h2 h3 h4 =>
      rw [takeWhile_digits h2 (stops_after hq h4)]
      refine ⟨decimal d, idx, (atoi_iff d _).mpr ⟨h1, h3, rfl⟩, rfl, ?_⟩
      rw [List.drop_left]
      exact h4
  · rintro ⟨v, rest, ha, rfl, h⟩
    obtain ⟨h1, h2, rfl⟩ := (atoi_iff _ _).mp ha
    have hw : w = w.takeWhile isDigit ++ w.drop (w.takeWhile isDigit).length := by
      conv_lhs => rw [← List.take_append_drop (w.takeWhile isDigit).length w]
      congr 1
      exact (List.prefix_iff_eq_take.mp (List.takeWhile_prefix isDigit)).symm
    conv => arg 2; rw [hw]
    exact .number _ _ _ _ h1 (takeWhile_all w) h2 h

/-! ## Pieces -/

def join : List Bytes → Bytes
  | [] => []
  | [l] => l
  | l :: l' :: r => l ++ amp :: join (l' :: r)

theorem pieces_ne (p : Bytes) : pieces p ≠ [] := by
  induction p with
  | nil => simp [pieces]
  | cons c p ih =>
    unfold pieces
    split
    · simp
    · split <;> simp

theorem join_pieces (p : Bytes) : join (pieces p) = p ∧ ∀ l ∈ pieces p, ∀ c ∈ l, c ≠ amp := by
  induction p with
  | nil => simp [pieces, join]
  | cons c p ih =>
    unfold pieces
    split
    · rename_i hc
      subst hc
      cases hp : pieces p with
      | nil => exact absurd hp (pieces_ne p)
      | cons l r =>
        rw [hp] at ih
        refine ⟨?_, ?_⟩
        · simp only [join, List.nil_append]
          rw [ih.1]
        · intro x hx
          rcases List.mem_cons.mp hx with rfl | h
          · simp
          · exact ih.2 x h
    · rename_i hc
      cases hp : pieces p with
      | nil => exact absurd hp (pieces_ne p)
      | cons l r =>
        rw [hp] at ih
        refine ⟨?_, ?_⟩
        · cases r with
          | nil => simpa [join] using ih.1
          | cons l' r =>
            simp only [join, List.cons_append]
            have := ih.1
            simp only [join] at this
            rw [this]
        · intro x hx
          rcases List.mem_cons.mp hx with rfl | h
          · intro y hy
            rcases List.mem_cons.mp hy with rfl | h
            · exact hc
            · exact ih.2 l (by simp) y h
          · exact ih.2 x (by simp [h])

theorem pieces_length (p : Bytes) : (pieces p).length = p.count amp + 1 := by
  induction p with
  | nil => simp [pieces]
  | cons c p ih =>
    unfold pieces
    split
    · rename_i hc
      subst hc
      simp [ih]
    · rename_i hc
      rw [List.count_cons_of_ne hc]
      cases hp : pieces p with
      | nil => exact absurd hp (pieces_ne p)
      | cons l r =>
        rw [hp] at ih
        simpa using ih

theorem plain_drop {a b : Bytes} (h : plain (a ++ b) = true) : plain b = true := by
  induction a with
  | nil => exact h
  | cons c a ih =>
    simp only [List.cons_append, plain, Bool.and_eq_true] at h
    exact ih h.2

theorem matchPieces_iff (ps : List Bytes) (hne : ps ≠ []) (hamp : ∀ l ∈ ps, ∀ c ∈ l, c ≠ amp)
    (hplain : plain (join ps) = true) (path : Bytes) (acc r : List Nat)
    (hlen : acc.length + ps.length ≤ 9) :
    matchPieces ps path acc = some r ↔ ∃ idx, r = acc ++ idx ∧ Instance (join ps) path idx := by
  induction ps generalizing path acc with
  | nil => exact absurd rfl hne
  | cons l ps ih =>
    cases ps with
    | nil =>
      simp only [matchPieces, join]
      have := fun idx => instance_letters l [] path idx (hamp l (by simp))
      simp only [List.append_nil] at this
      constructor
      · intro h
        split at h
        · rename_i he
          subst he
          cases h
          exact ⟨[], by simp, (this []).mpr ⟨[], by simp, .nil⟩⟩
        · cases h
      · rintro ⟨idx, rfl, h⟩
        obtain ⟨w', rfl, h'⟩ := (this idx).mp h
        cases h'
        simp
    | cons l' ps =>
      simp only [join] at hplain ⊢
      have hp1 : plain (amp :: join (l' :: ps)) = true := plain_drop hplain
      have hp2 : plain (join (l' :: ps)) = true := by
        simp only [plain, Bool.and_eq_true] at hp1
        exact hp1.2
      have hlen' : acc.length + (ps.length + 2) ≤ 9 := by simpa using hlen
      simp only [matchPieces]
      rw [if_neg (by omega)]
      have hinst : ∀ idx, Instance (l ++ amp :: join (l' :: ps)) path idx ↔
          path.take l.length = l ∧ ∃ v rest,
            atoi ((path.drop l.length).takeWhile isDigit) = some v ∧ idx = v :: rest ∧
            Instance (join (l' :: ps)) ((path.drop l.length).drop
              ((path.drop l.length).takeWhile isDigit).length) rest := by
        intro idx
        rw [instance_letters l _ path idx (hamp l (by simp))]
        constructor
        · rintro ⟨w', rfl, h⟩
          rw [List.take_left, List.drop_left]
          exact ⟨rfl, (instance_number _ _ _ hp1).mp h⟩
        · rintro ⟨ht, h⟩
          refine ⟨path.drop l.length, ?_, (instance_number _ _ _ hp1).mpr h⟩
          conv_lhs => rw [← List.take_append_drop l.length path, ht]
      split
      · rename_i ht
        constructor
        · intro h; cases h
        · rintro ⟨idx, _, h⟩
          exact absurd ((hinst idx).mp h).1 ht
      · rename_i ht
        have ht : path.take l.length = l := by simpa using ht
        cases ha : atoi ((path.drop l.length).takeWhile isDigit) with
        | none =>
          simp only
          constructor
          · intro h; cases h
          · rintro ⟨idx, _, h⟩
            obtain ⟨_, v, rest, h1, _⟩ := (hinst idx).mp h
            rw [ha] at h1
            cases h1
        | some v =>
          simp only
          rw [ih (by simp) (fun x hx => hamp x (by simp [hx])) hp2 _ _
            (by simp only [List.length_append, List.length_cons, List.length_nil]; omega)]
          constructor
          · rintro ⟨idx, rfl, h⟩
            exact ⟨v :: idx, by simp, (hinst _).mpr ⟨ht, v, idx, ha, rfl, h⟩⟩
          · rintro ⟨idx, rfl, h⟩
            obtain ⟨_, v', rest, h1, rfl, h2⟩ := (hinst idx).mp h
            rw [ha] at h1
            cases h1
            exact ⟨rest, by simp, h2⟩

/-- **C46.** A request matches a pattern exactly when its path is the pattern with a number for each
`&` and the signatures are equal, and the handler gets these numbers. -/
theorem match_iff (pattern psig path sig : Bytes) (idx : List Nat) (hp : plain pattern = true)
    (h8 : pattern.count amp ≤ 8) :
    «match» pattern psig path sig = some idx ↔ sig = psig ∧ Instance pattern path idx := by
  obtain ⟨hj, ha⟩ := join_pieces pattern
  have key : ∀ r, matchPieces (pieces pattern) path [] = some r ↔ Instance pattern path r := by
    intro r
    rw [matchPieces_iff (pieces pattern) (pieces_ne _) ha (by rw [hj]; exact hp) path [] r
      (by rw [pieces_length]; simp; omega), hj]
    simp
  unfold «match»
  constructor
  · intro h
    split at h
    · rename_i r hr
      split at h
      · rename_i hs
        cases h
        exact ⟨hs, (key _).mp hr⟩
      · cases h
    · cases h
  · rintro ⟨rfl, h⟩
    rw [(key idx).mpr h]
    simp

theorem matchPieces_le (ps : List Bytes) (path : Bytes) (acc r : List Nat) (ha : acc.length ≤ 8)
    (h : matchPieces ps path acc = some r) : r.length ≤ 8 := by
  induction ps generalizing path acc with
  | nil => simp [matchPieces] at h
  | cons p ps ih =>
    cases ps with
    | nil =>
      simp only [matchPieces] at h
      split at h
      · cases h; exact ha
      · cases h
    | cons q qs =>
      simp only [matchPieces] at h
      split at h
      · cases h
      · rename_i h8
        split at h
        · cases h
        · split at h
          · cases h
          · exact ih _ _ (by simp; omega) h

/-- **C46.** Whatever the pattern and the path are, no more than the eight indices that there is room for are stored. -/
theorem match_room (pattern psig path sig : Bytes) (idx : List Nat)
    (h : «match» pattern psig path sig = some idx) : idx.length ≤ 8 := by
  unfold «match» at h
  split at h
  · rename_i r hr
    split at h
    · cases h
      exact matchPieces_le _ _ [] _ (by simp) hr
    · cases h
  · cases h

example : «match» (codes "/a&/b&".toList) [] (codes "/a12/b7".toList) [] = some [12, 7] := by decide +kernel

/-- The indices are determined by the path. -/
theorem indices_unique {pattern path : Bytes} {a b : List Nat} (hp : plain pattern = true)
    (h8 : pattern.count amp ≤ 8) (ha : Instance pattern path a) (hb : Instance pattern path b) :
    a = b := by
  have h1 := (match_iff pattern [] path [] a hp h8).mpr ⟨rfl, ha⟩
  have h2 := (match_iff pattern [] path [] b hp h8).mpr ⟨rfl, hb⟩
  rw [h1] at h2
  cases h2
  rfl

/-! ## Hashes -/

theorem hashPath_digits (d w : Bytes) (hd : ∀ c ∈ d, isDigit c = true) (h : Nat) :
    hashPath (d ++ w) true h = hashPath w true h := by
  induction d with
  | nil => rfl
  | cons c d ih =>
    rw [List.cons_append, hashPath, if_pos (hd c (by simp)), if_pos rfl]
    exact ih fun x hx => hd x (by simp [hx])

theorem hashPath_stops {w : Bytes} (hw : Stops w) (h : Nat) : hashPath w true h = hashPath w false h := by
  cases w with
  | nil => rfl
  | cons c w =>
    have := hw c rfl
    simp [hashPath, this]

theorem hashPath_instance {p w : Bytes} {idx : List Nat} (hp : plain p = true) (h : Instance p w idx)
    (a : Nat) : hashPath w false a = p.foldl hashByte a := by
  induction h generalizing a with
  | nil => rfl
  | letter c p w idx hne h ih =>
    have hq := hp
    simp only [plain, Bool.and_eq_true, Bool.not_eq_true'] at hp
    rw [hashPath, if_neg (by rw [hp.1.1]; simp), ih hp.2, List.foldl_cons]
  | number d p w idx h1 h2 h3 h ih =>
    have hq := hp
    simp only [plain, Bool.and_eq_true, Bool.not_eq_true'] at hp
    cases d with
    | nil => exact absurd rfl h1
    | cons c d =>
      rw [List.cons_append, hashPath, if_pos (h2 c (by simp)), if_neg (by simp),
        hashPath_digits d w (fun x hx => h2 x (by simp [hx])), hashPath_stops (stops_after hq h),
        ih hp.2, List.foldl_cons]

theorem hash_instance {p w sig : Bytes} {idx : List Nat} (hp : plain p = true)
    (h : Instance p w idx) : hashMessagePath w sig = hash (p ++ comma :: sig) := by
  unfold hashMessagePath hash
  rw [hashPath_instance hp h, List.foldl_append, List.foldl_cons]

/-! ## The table -/

set_option maxRecDepth 100000 in
/-- The patterns of the engine have no digits and no adjacent `&`, and no more than eight `&`. -/
theorem table_plain : table.all (fun r => plain r.1 && decide (r.1.count amp ≤ 8)) = true := by
  decide +kernel

/-- Is `a` not in the list, are all different: in a form that is quick to compute. -/
def notIn (a : Nat) : List Nat → Bool
  | [] => true
  | b :: l => bif Nat.beq a b then false else notIn a l

def allDifferent : List Nat → Bool
  | [] => true
  | a :: l => bif notIn a l then allDifferent l else false

theorem notIn_sound (a : Nat) (l : List Nat) (h : notIn a l = true) : ∀ b ∈ l, a ≠ b := by
  induction l with
  | nil => simp
  | cons c l ih =>
    simp only [notIn] at h
    cases hc : Nat.beq a c with
    | true => rw [hc] at h; cases h
    | false =>
      rw [hc] at h
      intro b hb
      rcases List.mem_cons.mp hb with rfl | hb
      · exact Nat.ne_of_beq_eq_false hc
      · exact ih h b hb

theorem allDifferent_sound (l : List Nat) (h : allDifferent l = true) : l.Nodup := by
  induction l with
  | nil => exact List.nodup_nil
  | cons a l ih =>
    simp only [allDifferent] at h
    cases ha : notIn a l with
    | false => rw [ha] at h; cases h
    | true =>
      rw [ha] at h
      exact List.nodup_cons.mpr ⟨fun hm => notIn_sound a l ha a hm rfl, ih h⟩

set_option maxRecDepth 100000 in
/-- The case labels of the `switch` are distinct. -/
theorem table_hashes : (table.map fun r => hash (r.1 ++ comma :: r.2)).Nodup :=
  allDifferent_sound _ (by decide +kernel)

theorem dispatchIn_iff (t : List (Bytes × Bytes))
    (hplain : ∀ r ∈ t, plain r.1 = true ∧ r.1.count amp ≤ 8)
    (hnodup : (t.map fun r => hash (r.1 ++ comma :: r.2)).Nodup) (path sig : Bytes) (i : Nat)
    (idx : List Nat) :
    dispatchIn t path sig = some (i, idx) ↔
      ∃ r, t[i]? = some r ∧ sig = r.2 ∧ Instance r.1 path idx := by
  unfold dispatchIn
  constructor
  · intro h
    split at h
    · cases h
    · split at h
      · cases h
      · rename_i j hj r hr
        cases hm : «match» r.1 r.2 path sig with
        | none => rw [hm] at h; cases h
        | some l =>
          rw [hm] at h
          cases h
          obtain ⟨hp, h8⟩ := hplain r (List.mem_of_getElem? hr)
          obtain ⟨h1, h2⟩ := (match_iff _ _ _ _ _ hp h8).mp hm
          exact ⟨r, hr, h1, h2⟩
  · rintro ⟨r, hr, rfl, h⟩
    obtain ⟨hp, h8⟩ := hplain r (List.mem_of_getElem? hr)
    have hh : hash (r.1 ++ comma :: r.2) = hashMessagePath path r.2 := (hash_instance hp h).symm
    obtain ⟨hi, hri⟩ := List.getElem?_eq_some_iff.mp hr
    have hfind : t.findIdx? (fun r' => hash (r'.1 ++ comma :: r'.2) == hashMessagePath path r.2) = some i := by
      rw [List.findIdx?_eq_some_iff_getElem]
      refine ⟨hi, by simpa [hri] using hh, ?_⟩
      intro j hj
      simp only [beq_iff_eq]
      intro he
      have he' : hash (t[j].1 ++ comma :: t[j].2) = hash (t[i].1 ++ comma :: t[i].2) := by
        rw [he, hri, hh]
      have hlt := (List.pairwise_iff_getElem.mp hnodup) j i (by simp; omega) (by simpa using hi) hj
      simp only [List.getElem_map] at hlt
      exact hlt he'
    rw [hfind]
    simp only
    rw [hr]
    simp only
    rw [(match_iff _ _ _ _ _ hp h8).mpr ⟨rfl, h⟩]
    rfl

/-- **C46.** The handler that runs for a request, and the indices it gets: those of the one pattern of
the table that the path is an instance of, with the request's signature.  Requests that are no instance
of a pattern run no handler. -/
theorem dispatch_iff (path sig : Bytes) (i : Nat) (idx : List Nat) :
    dispatch path sig = some (i, idx) ↔
      ∃ r, table[i]? = some r ∧ sig = r.2 ∧ Instance r.1 path idx := by
  refine dispatchIn_iff table ?_ table_hashes path sig i idx
  intro r hr
  have := List.all_eq_true.mp table_plain r hr
  simpa using this

theorem dispatch_none (path sig : Bytes)
    (h : ∀ (i : Nat) (r : Bytes × Bytes) (idx : List Nat), table[i]? = some r → sig = r.2 → ¬ Instance r.1 path idx) :
    dispatch path sig = none := by
  cases hd : dispatch path sig with
  | none => rfl
  | some x =>
    obtain ⟨i, idx⟩ := x
    obtain ⟨r, h1, h2, h3⟩ := (dispatch_iff _ _ _ _).mp hd
    exact absurd h3 (h i r idx h1 h2)

example : Instance (ascii "/region&/cc_range&") (ascii "/region12/cc_range007") [12, 7] := by
  exact ((match_iff _ [] _ [] _ (by decide +kernel) (by decide +kernel)).mp (by decide +kernel)).2

set_option maxRecDepth 100000 in
example : (dispatch (ascii "/region12/cc_range007") (ascii "ff")).map (fun x =>
      ((rows[x.1]?).map (·.2.1), x.2)) = some (some "/region&/cc_range&".toList, [12, 7]) ∧
    dispatch (ascii "/region12/cc_range") (ascii "ff") = none ∧
    dispatch (ascii "/region&/delay") [] = none := by
  decide +kernel

/-! ## Elements -/

/-- **C64.** Regions, filters, equalizers, LFOs, sub-LFOs, envelopes and effect gains: no index reaches
outside the container, and an index in range reaches its element (but the gain to effect 0, which
cannot be reached). -/
theorem elements_in_bounds (n i : Nat) (hi : i < 4294967296) :
    getBySize n i = (if i < n then .element i else .nothing) ∧
    (n < 2147483648 → getEffect n i = (if 0 < i ∧ i < n then .element i else .nothing)) ∧
    getNote i = (if i < 128 then .element i else .nothing) := by
  refine ⟨?_, ?_, ?_⟩
  · unfold getBySize at'
    by_cases h : i < n
    · rw [if_neg (by omega), if_pos h]; simp [h]
    · rw [if_pos (by omega), if_neg h]
  · intro hn
    unfold getEffect at' toInt
    by_cases h : i < 2147483648
    · rw [if_pos h]
      by_cases h2 : 0 < i ∧ i < n
      · rw [if_pos (by omega), if_pos h2.2, if_pos h2]
      · rw [if_neg (by omega), if_neg h2]
    · rw [if_neg h, if_neg (by omega), if_neg (by omega)]
  · unfold getNote at' toInt
    by_cases h : i < 2147483648
    · rw [if_pos h]
      by_cases h2 : i < 128
      · rw [if_pos (by omega), if_neg (by omega), if_pos h2, if_pos h2]
      · rw [if_neg (by omega), if_neg h2]
    · rw [if_neg h, if_pos (by omega), if_pos (by omega), if_neg (by omega)]

example : getBySize 3 2 = .element 2 ∧ getBySize 3 3 = .nothing ∧ getNote 4294967295 = .nothing := by
  decide

/-- **C64.** Controllers: safe for all numbers but 512.  `_partial`: for 512 see
`controller_index_violated`. -/
theorem controller_index_partial (i : Nat) (hi : i ≠ 512) :
    getCC i = (if i < 512 then .element i else .nothing) := by
  unfold getCC at'
  by_cases h : i < 512
  · rw [if_pos (by omega), if_pos h, if_pos h]
  · rw [if_neg (by omega), if_neg h]

set_option maxRecDepth 100000 in
/-- **C64.** The request `/cc512/value` reads past the table of controller values. -/
theorem controller_index_violated :
    (dispatch (ascii "/cc512/value") []).map (fun x =>
      ((rows[x.1]?).map (·.2.1), x.2.map getCC)) = some (some "/cc&/value".toList, [.outOfBounds]) := by
  decide +kernel

/-- **C64.** Voices: safe for numbers below 2³¹, when there are at least as many voices as were set.
`_partial`: for larger numbers see `voice_index_violated`. -/
theorem voice_index_partial (numVoices n i : Nat) (hn : numVoices ≤ n) (hi : i < 2147483648) :
    getVoice numVoices n i = (if i < numVoices then .element i else .nothing) := by
  unfold getVoice at' toInt
  rw [if_pos hi]
  by_cases h : i < numVoices
  · rw [if_neg (by omega), if_pos (by omega), if_pos h]
  · rw [if_pos (by omega), if_neg h]

set_option maxRecDepth 100000 in
/-- **C64.** The request `/voice4294967295/trigger_value` reads outside the voices. -/
theorem voice_index_violated :
    (dispatch (ascii "/voice4294967295/trigger_value") []).map (fun x =>
      ((rows[x.1]?).map (·.2.1), x.2.map (getVoice 64 96))) =
      some (some "/voice&/trigger_value".toList, [.outOfBounds]) := by
  decide +kernel

/-- **C64.** Envelope points: never out of bounds; the user's `n` points follow a first one that is
not theirs. -/
theorem point_index_partial (n i : Nat) (hi : i < 4294967295) :
    getPoint (n + 1) i = (if i < n then .element (i + 1) else .nothing) := by
  unfold getPoint at'
  rw [Nat.mod_eq_of_lt (by omega)]
  dsimp only
  by_cases h : i < n
  · rw [if_neg (by omega), if_pos (by omega), if_pos h]
  · rw [if_pos (by omega), if_neg h]

theorem point_index_safe (n i : Nat) : getPoint n i ≠ .outOfBounds := by
  unfold getPoint at'
  dsimp only
  split
  · simp
  · rw [if_pos (by omega)]
    simp

/-- **C64.** Point 4294967295 is the hidden first point. -/
theorem point_index_violated : getPoint 3 4294967295 = .element 0 := by decide

/-! ## Room for filters -/

/-- Every voice can play every region. -/
def Roomy (s : Rooms) : Prop := ∀ i, startOk s i = true

theorem foldl_max_ge (f : Counts → Nat) (l : List Counts) (m : Nat) :
    m ≤ l.foldl (fun m c => max m (f c)) m ∧ ∀ c ∈ l, f c ≤ l.foldl (fun m c => max m (f c)) m := by
  induction l generalizing m with
  | nil => simp
  | cons a l ih =>
    rw [List.foldl_cons]
    obtain ⟨h1, h2⟩ := ih (max m (f a))
    refine ⟨by omega, ?_⟩
    intro c hc
    rcases List.mem_cons.mp hc with rfl | h
    · omega
    · exact h2 c h

/-- **C65.** After loading, every voice has the filters and equalizers of every region; adding envelopes
by message keeps it so.  `_partial`: adding filters and equalizers does not. -/
theorem room_partial (regions : List Counts) (ops : List Nat) :
    Roomy (ops.foldl (fun s i => add s (.eg i)) (loaded regions)) := by
  suffices h : ∀ (ops : List Nat) (s : Rooms), Roomy s →
      Roomy (ops.foldl (fun s i => add s (.eg i)) s) by
    refine h ops _ ?_
    intro i
    unfold startOk loaded
    cases hc : regions[i]? with
    | none => simp
    | some c =>
      simp only [Bool.and_eq_true, decide_eq_true_eq]
      have hm := List.mem_of_getElem? hc
      exact ⟨(foldl_max_ge _ _ _).2 c hm, (foldl_max_ge _ _ _).2 c hm⟩
  intro ops
  induction ops with
  | nil => exact fun s h => h
  | cons o ops ih =>
    intro s h
    refine ih _ ?_
    intro i
    simp only [add]
    cases hc : s.regions[o]? with
    | none => exact h i
    | some c =>
      simp only [startOk]
      have hi := h i
      have ho := h o
      simp only [startOk, hc] at ho
      by_cases hio : o = i
      · subst hio
        rw [List.getElem?_set_self (List.getElem?_eq_some_iff.mp hc).1]
        exact ho
      · rw [List.getElem?_set_ne hio]
        simp only [startOk] at hi
        exact hi

/-- **C65.** A filter added by message has no room in the voices: starting the next voice for the region
writes outside its filters. -/
theorem room_violated :
    let s := loaded [⟨0, 0, 0⟩]
    Roomy s ∧ startOk (add s (.filter 0)) 0 = false ∧ startOk (add s (.eq 0)) 0 = false := by
  refine ⟨room_partial [⟨0, 0, 0⟩] [], by decide, by decide⟩

/-- **C65.** Whatever is added by messages, every voice has room for all the envelopes of every region. -/
theorem envelope_room (regions : List Counts) (ops : List Add) (i : Nat) (c : Counts)
    (hc : (ops.foldl add (loaded regions)).regions[i]? = some c) :
    c.egs ≤ (ops.foldl add (loaded regions)).room.egs := by
  suffices h : ∀ (ops : List Add) (s : Rooms), (∀ (i : Nat) (c : Counts), s.regions[i]? = some c → c.egs ≤ s.room.egs) →
      ∀ (i : Nat) (c : Counts), (ops.foldl add s).regions[i]? = some c → c.egs ≤ (ops.foldl add s).room.egs by
    refine h ops _ ?_ i c hc
    intro i c hc
    exact (foldl_max_ge _ _ _).2 c (List.mem_of_getElem? hc)
  intro ops
  induction ops with
  | nil => exact fun s h => h
  | cons o ops ih =>
    intro s h
    refine ih _ ?_
    intro i c hc
    cases o with
    | filter k =>
      simp only [add] at hc ⊢
      cases hk : s.regions[k]? with
      | none => rw [hk] at hc; exact h i c hc
      | some d =>
        rw [hk] at hc
        have hd := h k d hk
        by_cases hki : k = i
        · subst hki
          simp only [List.getElem?_set_self (List.getElem?_eq_some_iff.mp hk).1, Option.some.injEq] at hc
          subst hc; exact hd
        · simp only [List.getElem?_set_ne hki] at hc; exact h i c hc
    | eq k =>
      simp only [add] at hc ⊢
      cases hk : s.regions[k]? with
      | none => rw [hk] at hc; exact h i c hc
      | some d =>
        rw [hk] at hc
        have hd := h k d hk
        by_cases hki : k = i
        · subst hki
          simp only [List.getElem?_set_self (List.getElem?_eq_some_iff.mp hk).1, Option.some.injEq] at hc
          subst hc; exact hd
        · simp only [List.getElem?_set_ne hki] at hc; exact h i c hc
    | eg k =>
      simp only [add] at hc ⊢
      cases hk : s.regions[k]? with
      | none => rw [hk] at hc; exact h i c hc
      | some d =>
        rw [hk] at hc
        by_cases hki : k = i
        · subst hki
          simp only [List.getElem?_set_self (List.getElem?_eq_some_iff.mp hk).1, Option.some.injEq] at hc
          subst hc; exact le_max_right _ _
        · simp only [List.getElem?_set_ne hki] at hc; exact le_trans (h i c hc) (le_max_left _ _)

example : (([.eg 1, .filter 0, .eg 1, .eq 1] : List Add).foldl add (loaded [⟨0, 0, 2⟩, ⟨1, 0, 1⟩])).room.egs = 3 ∧
    (([.eg 1, .filter 0, .eg 1, .eq 1] : List Add).foldl add (loaded [⟨0, 0, 2⟩, ⟨1, 0, 1⟩])).regions[1]? =
      some ⟨1, 1, 3⟩ := by decide

end Verif.Messages
