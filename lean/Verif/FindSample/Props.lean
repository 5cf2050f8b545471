import Verif.FindSample.Model
import Mathlib.Data.List.SplitOn
import Mathlib.Tactic.Push

/-! C133: samples are found whatever the case of their names and the direction of the slashes. -/
namespace Verif.FindSample

/-! ### Specification -/

/-- From the place `loc`, the names `ps`, read without regard to the case of letters, lead to `P`. -/
inductive Reaches (t : Node) : List Name → List Name → List Name → Prop where
  | here (loc : List Name) : Reaches t loc [] loc
  | stay (loc ps P : List Name) (es : List (Name × Node)) : entriesAt t loc = some es → Reaches t loc ps P → Reaches t loc (dot :: ps) P
  | up (loc ps P : List Name) (es : List (Name × Node)) : entriesAt t loc = some es → Reaches t loc.dropLast ps P →
      Reaches t loc (dotdot :: ps) P
  | down (loc : List Name) (p n : Name) (ps P : List Name) (es : List (Name × Node)) : entriesAt t loc = some es → n ∈ es.map (·.1) →
      p ≠ dot → p ≠ dotdot → same n p = true → Reaches t (loc ++ [n]) ps P → Reaches t loc (p :: ps) P

/-- No entry of a directory is called "." or "..". -/
def Tree (t : Node) : Prop := ∀ loc es, entriesAt t loc = some es → ∀ e ∈ es, e.1 ≠ dot ∧ e.1 ≠ dotdot

/-- No two entries of a directory differ by the case of letters only. -/
def Distinct (t : Node) : Prop := ∀ loc es, entriesAt t loc = some es → ∀ e ∈ es, ∀ e' ∈ es, same e.1 e'.1 = true → e.1 = e'.1

/-- The root directory: an existing directory, its path without dots. -/
def Base (t : Node) (base : List Name) : Prop := (entriesAt t base).isSome = true ∧ ∀ n ∈ base, n ≠ dot ∧ n ≠ dotdot

/-- The last name is not a dot. -/
def Proper (ps : List Name) : Prop := ∀ x ∈ ps.getLast?, x ≠ dot ∧ x ≠ dotdot

/-! ### Lemmas -/

theorem same_refl (a : Name) : same a a = true := by simp [same]

theorem same_trans {a b c : Name} (h1 : same a b = true) (h2 : same c b = true) : same a c = true := by
  simp only [same, beq_iff_eq] at *
  rw [h1, h2]

theorem resolve_append (t : Node) (a b : List Name) : ∀ loc, resolve t loc (a ++ b) = (resolve t loc a).bind (fun l => resolve t l b) := by
  induction a with
  | nil => intro loc; rfl
  | cons p a ih =>
    intro loc
    simp only [List.cons_append, resolve]
    cases entriesAt t loc with
    | none => rfl
    | some es =>
      simp only [Option.bind_some]
      split
      · exact ih loc
      · split
        · exact ih _
        · split
          · exact ih _
          · rfl

theorem nodeAt_append (a b : List Name) : ∀ t : Node, nodeAt t (a ++ b) = (nodeAt t a).bind (fun u => nodeAt u b) := by
  induction a with
  | nil => intro t; simp [nodeAt]
  | cons n a ih =>
    intro t
    cases t with
    | file c => simp [nodeAt]
    | dir es =>
      simp only [List.cons_append, nodeAt]
      cases child es n with
      | none => rfl
      | some u => simp only [Option.bind_some]; exact ih u

/-- An existing place, its path without dots. -/
def Good (t : Node) (loc : List Name) : Prop := (nodeAt t loc).isSome = true ∧ ∀ n ∈ loc, n ≠ dot ∧ n ≠ dotdot

theorem good_nil (t : Node) : Good t [] := by simp [Good, nodeAt]

theorem entries_node {t : Node} {loc : List Name} {es : List (Name × Node)} (h : entriesAt t loc = some es) : nodeAt t loc = some (.dir es) := by
  unfold entriesAt at h
  split at h
  · rename_i es' h'; rw [h']; simpa using h
  · cases h

theorem child_node {t : Node} {loc : List Name} {es : List (Name × Node)} (h : entriesAt t loc = some es) (n : Name) :
    nodeAt t (loc ++ [n]) = child es n := by
  rw [nodeAt_append, entries_node h]
  simp only [Option.bind_some, nodeAt]
  cases child es n <;> simp

theorem node_child {t : Node} {a : List Name} {n : Name} (h : (nodeAt t (a ++ [n])).isSome = true) :
    ∃ es, entriesAt t a = some es ∧ (child es n).isSome = true := by
  rw [nodeAt_append] at h
  cases hu : nodeAt t a with
  | none => rw [hu] at h; simp at h
  | some u =>
    rw [hu] at h
    cases u with
    | file c => simp [nodeAt] at h
    | dir es =>
      refine ⟨es, by simp [entriesAt, hu], ?_⟩
      simp only [Option.bind_some, nodeAt] at h
      cases hc : child es n with
      | none => rw [hc] at h; simp at h
      | some v => rfl

theorem Good.parent {t : Node} {loc : List Name} (h : Good t loc) : Good t loc.dropLast := by
  rcases List.eq_nil_or_concat loc with rfl | ⟨a, n, rfl⟩
  · exact h
  · rw [List.concat_eq_append, List.dropLast_concat]
    rw [List.concat_eq_append] at h
    obtain ⟨es, h1, _⟩ := node_child h.1
    exact ⟨by rw [entries_node h1]; rfl, fun m hm => h.2 m (by simp [hm])⟩

theorem good_resolve {t : Node} : ∀ (ps loc P : List Name), Good t loc → resolve t loc ps = some P → Good t P := by
  intro ps
  induction ps with
  | nil => intro loc P h e; simp only [resolve, Option.some.injEq] at e; exact e ▸ h
  | cons p ps ih =>
    intro loc P h e
    simp only [resolve] at e
    cases he : entriesAt t loc with
    | none => rw [he] at e; simp at e
    | some es =>
      rw [he] at e
      simp only [Option.bind_some] at e
      split at e
      · exact ih _ _ h e
      · split at e
        · exact ih _ _ h.parent e
        · split at e
          · rename_i h1 h2 h3
            refine ih _ _ ⟨by rw [child_node he]; exact h3, fun m hm => ?_⟩ e
            rcases List.mem_append.mp hm with hm | hm
            · exact h.2 m hm
            · simp only [List.mem_singleton] at hm; subst hm; exact ⟨h1, h2⟩
          · cases e

theorem resolve_good {t : Node} : ∀ (b a : List Name), Good t (a ++ b) → resolve t a b = some (a ++ b) := by
  intro b
  induction b with
  | nil => intro a _; simp [resolve]
  | cons n b ih =>
    intro a h
    have h1 : Good t ((a ++ [n]) ++ b) := by simpa using h
    have h2 : (nodeAt t (a ++ [n])).isSome = true := by
      have := h1.1
      rw [nodeAt_append] at this
      cases hn : nodeAt t (a ++ [n]) with
      | none => rw [hn] at this; simp at this
      | some u => rfl
    obtain ⟨es, h3, h4⟩ := node_child h2
    have hn := h.2 n (by simp)
    simp only [resolve]
    rw [h3, Option.bind_some, if_neg hn.1, if_neg hn.2, if_pos h4, ih _ h1]
    simp

theorem canonical_of {t : Node} : ∀ (ps loc P : List Name), resolve t loc ps = some P → weaklyCanonical t loc ps = P := by
  intro ps
  induction ps with
  | nil => intro loc P h; simpa [resolve, weaklyCanonical] using h
  | cons p ps ih =>
    intro loc P h
    rw [show p :: ps = [p] ++ ps from rfl, resolve_append] at h
    cases hp : resolve t loc [p] with
    | none => rw [hp] at h; cases h
    | some l =>
      rw [hp, Option.bind_some] at h
      unfold weaklyCanonical
      rw [hp]
      exact ih _ _ h

theorem common_take : ∀ (p q : List Name), p.take (common p q) = q.take (common p q) ∧ common p q ≤ p.length ∧ common p q ≤ q.length := by
  intro p
  induction p with
  | nil => intro q; simp [common]
  | cons a p ih =>
    intro q
    cases q with
    | nil => simp [common]
    | cons b q =>
      unfold common
      split
      · rename_i h
        obtain ⟨h1, h2, h3⟩ := ih q
        simp [h, h1, h2, h3]
      · simp

theorem ups {t : Node} : ∀ (j : Nat) (loc : List Name), Good t loc → (entriesAt t loc).isSome = true → j ≤ loc.length →
    resolve t loc (List.replicate j dotdot) = some (loc.take (loc.length - j)) := by
  intro j
  induction j with
  | zero => intro loc _ _ _; simp [resolve]
  | succ j ih =>
    intro loc hg hd hj
    obtain ⟨es, he⟩ := Option.isSome_iff_exists.mp hd
    simp only [List.replicate_succ, resolve]
    rw [he, Option.bind_some, if_neg (by decide), if_pos trivial]
    have hpar : (entriesAt t loc.dropLast).isSome = true := by
      rcases List.eq_nil_or_concat loc with rfl | ⟨a, n, rfl⟩
      · simp at hj
      · rw [List.concat_eq_append] at hg ⊢
        rw [List.dropLast_concat]
        obtain ⟨es', h1, _⟩ := node_child hg.1
        rw [h1]; rfl
    rw [ih _ hg.parent hpar (by rw [List.length_dropLast]; omega), List.length_dropLast, List.dropLast_eq_take, List.take_take]
    congr 2
    omega

/-- The way from the root directory to what was found leads there. -/
theorem relative_leads {t : Node} {path base P : List Name} (hb : Base t base) (h : resolve t [] path = some P) :
    resolve t [] (base ++ relative t path base) = some P := by
  have hg : Good t P := good_resolve _ _ _ (good_nil t) h
  have hgb : Good t base := by
    refine ⟨?_, hb.2⟩
    obtain ⟨es, he⟩ := Option.isSome_iff_exists.mp hb.1
    rw [entries_node he]; rfl
  have hbr : resolve t [] base = some base := by simpa using resolve_good base [] (by simpa using hgb)
  rw [resolve_append, hbr, Option.bind_some]
  unfold relative
  rw [canonical_of _ _ _ h]
  simp only
  obtain ⟨c1, c2, c3⟩ := common_take P base
  generalize common P base = k at *
  have hgo : resolve t base (List.replicate (base.length - k) dotdot ++ P.drop k) = some P := by
    rw [resolve_append, ups _ _ hgb hb.1 (by omega), Option.bind_some, show base.length - (base.length - k) = k by omega, ← c1]
    rw [resolve_good (P.drop k) (P.take k) (by rw [List.take_append_drop]; exact hg), List.take_append_drop]
  split
  · rename_i hr
    rw [hr] at hgo
    obtain ⟨es, he⟩ := Option.isSome_iff_exists.mp hb.1
    simp only [resolve] at hgo ⊢
    rw [he, Option.bind_some, if_pos trivial]
    exact hgo
  · exact hgo

theorem child_mem {es : List (Name × Node)} {n : Name} : (child es n).isSome = true ↔ n ∈ es.map (·.1) := by
  unfold child
  rw [Option.isSome_map, List.find?_isSome]
  simp

theorem reaches_resolve {t : Node} : ∀ (ps loc P : List Name), resolve t loc ps = some P → Reaches t loc ps P := by
  intro ps
  induction ps with
  | nil => intro loc P h; simp only [resolve, Option.some.injEq] at h; subst h; exact .here _
  | cons p ps ih =>
    intro loc P h
    simp only [resolve] at h
    cases he : entriesAt t loc with
    | none => rw [he] at h; simp at h
    | some es =>
      rw [he, Option.bind_some] at h
      split at h
      · rename_i hp; subst hp; exact .stay _ _ _ es he (ih _ _ h)
      · split at h
        · rename_i hp; subst hp; exact .up _ _ _ es he (ih _ _ h)
        · split at h
          · rename_i h1 h2 h3
            exact .down _ p p _ _ es he (child_mem.mp h3) h1 h2 (same_refl _) (ih _ _ h)
          · cases h

theorem Proper.tail {p : Name} {ps : List Name} (h : Proper (p :: ps)) : Proper ps := by
  intro x hx
  cases ps with
  | nil => cases hx
  | cons q ps => exact h x (by simpa using hx)

theorem search_lost {t : Node} : ∀ (ps acc : List Name), resolve t [] acc = none → ps ≠ [] → Proper ps → search t acc ps = none := by
  intro ps
  induction ps with
  | nil => intro _ _ h; exact absurd rfl h
  | cons p ps ih =>
    intro acc ha _ hp
    have hn : resolve t [] (acc ++ [p]) = none := by rw [resolve_append, ha]; rfl
    unfold search
    split
    · rename_i hd
      refine ih _ hn ?_ hp.tail
      rintro rfl
      have := hp p (by simp)
      rcases hd with h | h
      · exact this.1 h
      · exact this.2 h
    · rw [if_neg (by simp [«exists», hn]), ha]
      rfl

theorem resolve_one {t : Node} {acc loc : List Name} (ha : resolve t [] acc = some loc) (p : Name) :
    resolve t [] (acc ++ [p]) = resolve t loc [p] := by rw [resolve_append, ha]; rfl

theorem search_sound {t : Node} (ht : Tree t) : ∀ (ps acc loc path : List Name), resolve t [] acc = some loc → Proper ps →
    search t acc ps = some path → ∃ P, resolve t [] path = some P ∧ Reaches t loc ps P := by
  intro ps
  induction ps with
  | nil => intro acc loc path ha _ h; simp only [search, Option.some.injEq] at h; subst h; exact ⟨loc, ha, .here _⟩
  | cons p ps ih =>
    intro acc loc path ha hp h
    have hone := resolve_one ha p
    cases he : entriesAt t loc with
    | none =>
      -- the place is no directory
      have hn : resolve t [] (acc ++ [p]) = none := by rw [hone]; simp [resolve, he]
      exfalso
      unfold search at h
      split at h
      · rename_i hd
        have hne : ps ≠ [] := by
          rintro rfl
          have := hp p (by simp)
          rcases hd with h | h
          · exact this.1 h
          · exact this.2 h
        rw [search_lost ps _ hn hne hp.tail] at h
        cases h
      · rw [if_neg (by simp [«exists», hn]), ha, Option.bind_some, he] at h
        cases h
    | some es =>
      unfold search at h
      split at h
      · rename_i hd
        rcases hd with rfl | rfl
        · have : resolve t [] (acc ++ [dot]) = some loc := by rw [hone]; simp [resolve, he]
          obtain ⟨P, h1, h2⟩ := ih _ _ _ this hp.tail h
          exact ⟨P, h1, .stay _ _ _ es he h2⟩
        · have : resolve t [] (acc ++ [dotdot]) = some loc.dropLast := by
            rw [hone]; simp only [resolve]; rw [he, Option.bind_some, if_neg (by decide), if_pos trivial]
          obtain ⟨P, h1, h2⟩ := ih _ _ _ this hp.tail h
          exact ⟨P, h1, .up _ _ _ es he h2⟩
      · rename_i hd
        push Not at hd
        split at h
        · rename_i hex
          unfold «exists» at hex
          rw [hone] at hex
          simp only [resolve] at hex
          rw [he, Option.bind_some, if_neg hd.1, if_neg hd.2] at hex
          have hc : (child es p).isSome = true := by
            by_contra hc
            rw [if_neg hc] at hex; cases hex
          have : resolve t [] (acc ++ [p]) = some (loc ++ [p]) := by
            rw [hone]; simp only [resolve]; rw [he, Option.bind_some, if_neg hd.1, if_neg hd.2, if_pos hc]
          obtain ⟨P, h1, h2⟩ := ih _ _ _ this hp.tail h
          exact ⟨P, h1, .down _ p p _ _ es he (child_mem.mp hc) hd.1 hd.2 (same_refl _) h2⟩
        · rw [ha, Option.bind_some, he] at h
          simp only at h
          split at h
          · cases h
          · rename_i e hf
            have hmem := List.mem_of_find?_eq_some hf
            have hsame := List.find?_some hf
            have hd' := ht _ _ he e hmem
            have hmem' : e.1 ∈ es.map (·.1) := List.mem_map.mpr ⟨e, hmem, rfl⟩
            have : resolve t [] (acc ++ [e.1]) = some (loc ++ [e.1]) := by
              rw [resolve_one ha]; simp only [resolve]
              rw [he, Option.bind_some, if_neg hd'.1, if_neg hd'.2, if_pos (child_mem.mpr hmem')]
            obtain ⟨P, h1, h2⟩ := ih _ _ _ this hp.tail h
            exact ⟨P, h1, .down _ p e.1 _ _ es he hmem' hd.1 hd.2 hsame h2⟩

theorem search_complete {t : Node} (ht : Tree t) (hdist : Distinct t) {loc ps P : List Name} (hr : Reaches t loc ps P) :
    ∀ acc, resolve t [] acc = some loc → ∃ path, search t acc ps = some path ∧ resolve t [] path = some P := by
  induction hr with
  | here loc => intro acc ha; exact ⟨acc, rfl, ha⟩
  | stay loc ps P es he _ ih =>
    intro acc ha
    have : resolve t [] (acc ++ [dot]) = some loc := by rw [resolve_one ha]; simp [resolve, he]
    obtain ⟨path, h1, h2⟩ := ih _ this
    exact ⟨path, by unfold search; rw [if_pos (Or.inl rfl)]; exact h1, h2⟩
  | up loc ps P es he _ ih =>
    intro acc ha
    have : resolve t [] (acc ++ [dotdot]) = some loc.dropLast := by
      rw [resolve_one ha]; simp only [resolve]; rw [he, Option.bind_some, if_neg (by decide), if_pos trivial]
    obtain ⟨path, h1, h2⟩ := ih _ this
    exact ⟨path, by unfold search; rw [if_pos (Or.inr rfl)]; exact h1, h2⟩
  | down loc p n ps P es he hn hp1 hp2 hs _ ih =>
    intro acc ha
    obtain ⟨e, hemem, rfl⟩ := List.mem_map.mp hn
    unfold search
    rw [if_neg (by push Not; exact ⟨hp1, hp2⟩)]
    have hd' := ht _ _ he e hemem
    have hnext : resolve t [] (acc ++ [e.1]) = some (loc ++ [e.1]) := by
      rw [resolve_one ha]; simp only [resolve]
      rw [he, Option.bind_some, if_neg hd'.1, if_neg hd'.2, if_pos (child_mem.mpr hn)]
    obtain ⟨path, h1, h2⟩ := ih _ hnext
    split
    · rename_i hex
      unfold «exists» at hex
      rw [resolve_one ha] at hex
      simp only [resolve] at hex
      rw [he, Option.bind_some, if_neg hp1, if_neg hp2] at hex
      have hc : p ∈ es.map (·.1) := by
        by_contra hc
        rw [if_neg (fun hh => hc (child_mem.mp hh))] at hex; cases hex
      obtain ⟨e', he', hpe⟩ := List.mem_map.mp hc
      have : e.1 = p := by
        have := hdist _ _ he e hemem e' he' (by rw [hpe]; exact hs)
        rw [this, hpe]
      rw [← this]
      exact ⟨path, h1, h2⟩
    · rw [ha, Option.bind_some, he]
      simp only
      cases hf : es.find? (fun x => same x.1 p) with
      | none =>
        exfalso
        rw [List.find?_eq_none] at hf
        exact hf e hemem hs
      | some e' =>
        have hmem' := List.mem_of_find?_eq_some hf
        have hs' := List.find?_some hf
        have : e'.1 = e.1 := hdist _ _ he e' hmem' e hemem (same_trans hs' hs)
        simp only
        rw [this]
        exact ⟨path, h1, h2⟩

/-! ### The theorems -/

/-- **C133, exact names.** A file that exists under the name given is used under this name. -/
theorem exact_kept (t : Node) (base : List Name) (f : FileName) (P : List Name) (h : resolve t [] (f.path base) = some P) :
    checkSample t base f = some f := by
  unfold checkSample
  rw [if_pos (by simp [«exists», h])]

/-- **C133, nothing else.** Whatever the file system and the name: when a sample is found, its new name leads to something that the name
given leads to, read without regard to the case of letters. -/
theorem found_matches (t : Node) (ht : Tree t) (base : List Name) (hb : Base t base) (f f' : FileName) (hp : Proper (f.path base))
    (h : checkSample t base f = some f') :
    ∃ P, Reaches t [] (f.path base) P ∧ resolve t [] (f'.path base) = some P := by
  unfold checkSample at h
  split at h
  · rename_i hex
    obtain ⟨P, hP⟩ := Option.isSome_iff_exists.mp hex
    simp only [Option.some.injEq] at h
    subst h
    exact ⟨P, reaches_resolve _ _ _ hP, hP⟩
  · obtain ⟨path, hs, rfl⟩ := Option.map_eq_some_iff.mp h
    obtain ⟨P, h1, h2⟩ := search_sound ht _ [] [] path rfl hp hs
    exact ⟨P, h2, relative_leads hb h1⟩

/-- **C133, found.** When no directory holds two names that differ by case only, a sample is found if and only if the name given leads to
something, read without regard to the case of letters; and it is this that the new name leads to. -/
theorem found_iff_partial (t : Node) (ht : Tree t) (hd : Distinct t) (base : List Name) (hb : Base t base) (f : FileName)
    (hp : Proper (f.path base)) (P : List Name) :
    Reaches t [] (f.path base) P ↔ ∃ f', checkSample t base f = some f' ∧ resolve t [] (f'.path base) = some P := by
  have unique : ∀ loc ps P Q, Reaches t loc ps P → Reaches t loc ps Q → P = Q := by
    intro loc ps P Q h
    induction h with
    | here loc => intro h'; cases h'; rfl
    | stay loc ps P es he _ ih =>
      intro h'
      cases h' with
      | stay _ _ _ _ _ h => exact ih h
      | down _ _ _ _ _ _ _ _ h1 _ _ _ => exact absurd rfl h1
    | up loc ps P es he _ ih =>
      intro h'
      cases h' with
      | up _ _ _ _ _ h => exact ih h
      | down _ _ _ _ _ _ _ _ _ h2 _ _ => exact absurd rfl h2
    | down loc p n ps P es he hn hp1 hp2 hs _ ih =>
      intro h'
      cases h' with
      | stay _ _ _ _ _ _ => exact absurd rfl hp1
      | up _ _ _ _ _ _ => exact absurd rfl hp2
      | down _ _ m _ _ es' he' hm _ _ hs' h =>
        rw [he] at he'
        cases he'
        obtain ⟨e, hem, rfl⟩ := List.mem_map.mp hn
        obtain ⟨e', hem', rfl⟩ := List.mem_map.mp hm
        have := hd _ _ he e hem e' hem' (same_trans hs hs')
        rw [← this] at h
        exact ih h
  constructor
  · intro h
    unfold checkSample
    split
    · rename_i hex
      obtain ⟨Q, hQ⟩ := Option.isSome_iff_exists.mp hex
      refine ⟨f, rfl, ?_⟩
      rw [hQ, unique _ _ _ _ h (reaches_resolve _ _ _ hQ)]
    · obtain ⟨path, h1, h2⟩ := search_complete ht hd h [] rfl
      rw [h1]
      exact ⟨_, rfl, relative_leads hb h2⟩
  · rintro ⟨f', h1, h2⟩
    obtain ⟨Q, q1, q2⟩ := found_matches t ht base hb f f' hp h1
    rw [h2] at q2
    simp only [Option.some.injEq] at q2
    rw [q2]; exact q1

/-- **C133, slashes.** Backslashes and slashes in the value of `sample` mean the same: texts that differ only in these give the same file. -/
theorem slashes_same (defaultPath a b : List Char) (h : List.Forall₂ (fun x y => x = y ∨ (x ∈ ['/', '\\'] ∧ y ∈ ['/', '\\'])) a b) :
    pathParts (sampleName defaultPath a) = pathParts (sampleName defaultPath b) ∧ '\\' ∉ slashes a := by
  constructor
  · have e : slashes a = slashes b := by
      unfold slashes
      induction h with
      | nil => rfl
      | cons hxy _ ih =>
        rename_i x y _ _
        simp only [List.map_cons, ih, List.cons.injEq, and_true]
        rcases hxy with rfl | ⟨hx, hy⟩
        · rfl
        · simp only [List.mem_cons, List.not_mem_nil, or_false] at hx hy
          rcases hx with rfl | rfl <;> rcases hy with rfl | rfl <;> decide
    unfold sampleName
    rw [e]
  · unfold slashes
    rw [List.mem_map]
    rintro ⟨c, _, hc⟩
    split at hc
    · exact absurd hc (by decide)
    · rename_i h; exact h hc

/-! ### Cases -/

mutual
/-- The contents of all directories of a tree. -/
def dirs : Node → List (List (Name × Node))
  | .file _ => []
  | .dir es => es :: dirsIn es

def dirsIn : List (Name × Node) → List (List (Name × Node))
  | [] => []
  | (_, t) :: es => dirs t ++ dirsIn es
end

theorem dirs_sub {es : List (Name × Node)} {e : Name × Node} (h : e ∈ es) {x : List (Name × Node)} (hx : x ∈ dirs e.2) : x ∈ dirsIn es := by
  induction es with
  | nil => cases h
  | cons a es ih =>
    obtain ⟨n, t⟩ := a
    unfold dirsIn
    rcases List.mem_cons.mp h with rfl | h
    · exact List.mem_append.mpr (Or.inl hx)
    · exact List.mem_append.mpr (Or.inr (ih h))

theorem dirs_all : ∀ (loc : List Name) (t : Node) (es : List (Name × Node)), nodeAt t loc = some (.dir es) → es ∈ dirs t := by
  intro loc
  induction loc with
  | nil => intro t es h; simp only [nodeAt, Option.some.injEq] at h; subst h; simp [dirs]
  | cons n loc ih =>
    intro t es h
    cases t with
    | file c => simp [nodeAt] at h
    | dir es' =>
      simp only [nodeAt] at h
      cases hc : child es' n with
      | none => rw [hc] at h; cases h
      | some u =>
        rw [hc, Option.bind_some] at h
        have := ih u es h
        unfold child at hc
        obtain ⟨e, he, rfl⟩ := Option.map_eq_some_iff.mp hc
        unfold dirs
        exact List.mem_cons_of_mem _ (dirs_sub (List.mem_of_find?_eq_some he) this)

/-- The names in all directories. -/
def names (t : Node) : List (List Name) := (dirs t).map (·.map (·.1))

theorem tree_of {t : Node} (h : ∀ ns ∈ names t, ∀ n ∈ ns, n ≠ dot ∧ n ≠ dotdot) : Tree t :=
  fun loc es he e hm => h (es.map (·.1)) (List.mem_map.mpr ⟨es, dirs_all loc t es (entries_node he), rfl⟩) e.1 (List.mem_map.mpr ⟨e, hm, rfl⟩)

theorem distinct_of {t : Node} (h : ∀ ns ∈ names t, ∀ n ∈ ns, ∀ m ∈ ns, same n m = true → n = m) : Distinct t :=
  fun loc es he e hm e' hm' => h (es.map (·.1)) (List.mem_map.mpr ⟨es, dirs_all loc t es (entries_node he), rfl⟩) e.1
    (List.mem_map.mpr ⟨e, hm, rfl⟩) e'.1 (List.mem_map.mpr ⟨e', hm', rfl⟩)

/-- A disk: `/music/piano.sfz`, `/music/Samples/C4.WAV`, `/drums/kick.wav`. -/
def disk : Node := .dir [("music".toList, .dir [("piano.sfz".toList, .file 0), ("Samples".toList, .dir [("C4.WAV".toList, .file 1)])]),
  ("drums".toList, .dir [("kick.wav".toList, .file 2)])]

def music : List Name := ["music".toList]

/-- It meets the conditions of the theorems. -/
example : Tree disk ∧ Distinct disk ∧ Base disk music := by
  refine ⟨tree_of ?_, distinct_of ?_, rfl, by decide⟩
  · decide +kernel
  · decide +kernel

example : (checkSample disk music (pathParts (sampleName [] "samples\\c4.wav".toList))).map (·.parts) = some ["Samples".toList, "C4.WAV".toList] := by
  decide +kernel

example : (checkSample disk music (pathParts (sampleName "../".toList "Drums\\Kick.wav".toList))).map (·.parts) =
    some ["..".toList, "drums".toList, "kick.wav".toList] := by decide +kernel

/-- **C133, violated.** With two directories that differ by case only, a sample that is in one of them is not found when the other one is
tried: here the name of the directory is exact, and the file is in the other one. -/
theorem two_cases_violated : ∃ (t : Node) (base : List Name) (f : FileName) (P : List Name), Tree t ∧ Base t base ∧ Proper (f.path base) ∧
    Reaches t [] (f.path base) P ∧ checkSample t base f = none := by
  refine ⟨.dir [("samples".toList, .dir []), ("Samples".toList, .dir [("c4.wav".toList, .file 1)])], [],
    { parts := ["samples".toList, "c4.wav".toList] }, ["Samples".toList, "c4.wav".toList], ?_, ?_, ?_, ?_, by decide +kernel⟩
  · exact tree_of (by decide +kernel)
  · exact ⟨rfl, by simp⟩
  · intro x hx
    simp [FileName.path] at hx
    subst hx; decide
  · refine .down _ _ "Samples".toList _ _ _ rfl (by decide) (by decide) (by decide) (by decide) ?_
    exact .down _ _ "c4.wav".toList _ _ _ rfl (by decide) (by decide) (by decide) (by decide) (.here _)

end Verif.FindSample
