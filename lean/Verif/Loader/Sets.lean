import Verif.Loader.Props

/-!
C68: the headers of a file form a hierarchy of sets of regions; each header limits the polyphony of its set.
-/
namespace Verif.Loader
open Verif.Opcode

variable {ρ : Type}

/-! ### Specification -/

/-- The headers that contain regions, from the outermost in. -/
def rank : Header → Option Nat
  | .global => some 1
  | .master => some 3
  | .group => some 4
  | _ => none

/-- The number of such headers in a file. -/
def setsIn (file : List Block) : Nat := (file.filter (fun b => (rank b.header).isSome)).length

/-- The number of voices that a header allows (all, 256, if it does not tell): the last `polyphony` of the header. The opcodes
of the master header in force count for a group too; but with `group`, the limit is for this polyphony group instead. -/
def allowed (before : List Block) (b : Block) : Nat :=
  let os := if b.header = .group then lastOf .master [.global] before ++ b.members else b.members
  if b.header = .group ∧ ∃ o ∈ os, o.name = "group".toList then 256
  else
    match lastValue "polyphony".toList os with
    | none => 256
    | some v => (readPolyphony v).getD 256

/-- Each set is inside the nearest set before it that is of an outer level. -/
def Nested (sets : List RegionSet) : Prop :=
  ∀ (i : Nat) (x : RegionSet), sets[i]? = some x →
    match x.parent with
    | none => ∀ (k : Nat) (y : RegionSet), k < i → sets[k]? = some y → x.level ≤ y.level
    | some j => j < i ∧ (∃ y : RegionSet, sets[j]? = some y ∧ y.level < x.level) ∧
      ∀ (k : Nat) (y : RegionSet), j < k → k < i → sets[k]? = some y → x.level ≤ y.level

/-! ### Lemmas -/

theorem enclosing_spec {sets : List RegionSet} (hn : Nested sets) (level : Nat) : ∀ (fuel i : Nat), i < fuel → i < sets.length →
    (∀ j, enclosing sets level fuel (some i) = some j →
      j ≤ i ∧ (∃ y : RegionSet, sets[j]? = some y ∧ y.level < level) ∧ ∀ (k : Nat) (y : RegionSet), j < k → k ≤ i → sets[k]? = some y → level ≤ y.level) ∧
    (enclosing sets level fuel (some i) = none → ∀ (k : Nat) (y : RegionSet), k ≤ i → sets[k]? = some y → level ≤ y.level) := by
  intro fuel
  induction fuel with
  | zero => intro i h; omega
  | succ fuel ih =>
    intro i hi hl
    have hx : sets[i]? = some sets[i] := List.getElem?_eq_getElem hl
    generalize sets[i] = x at hx
    have hni := hn i x hx
    unfold enclosing
    rw [hx]
    dsimp only
    split
    · rename_i hge
      cases hp : x.parent with
      | none =>
        rw [hp] at hni
        dsimp only at hni
        have e : enclosing sets level fuel none = none := by cases fuel <;> rfl
        rw [e]
        refine ⟨fun j h => (by cases h), fun _ k y hk hy => ?_⟩
        rcases Nat.lt_or_ge k i with hlt | hge'
        · have := hni k y hlt hy; omega
        · have : k = i := by omega
          subst this
          rw [hx] at hy; cases hy; exact hge
      | some j =>
        rw [hp] at hni
        dsimp only at hni
        obtain ⟨hji, ⟨y0, hy0, _⟩, hbetween⟩ := hni
        obtain ⟨h1, h2⟩ := ih j (by omega) (by omega)
        have up : ∀ k y, j < k → k ≤ i → sets[k]? = some y → level ≤ y.level := by
          intro k y hjk hki hy
          rcases Nat.lt_or_ge k i with hlt | hge'
          · have := hbetween k y hjk hlt hy; omega
          · have : k = i := by omega
            subst this
            rw [hx] at hy; cases hy; exact hge
        constructor
        · intro m hm
          obtain ⟨a, b, c⟩ := h1 m hm
          refine ⟨by omega, b, fun k y hk1 hk2 hy => ?_⟩
          rcases Nat.lt_or_ge j k with hlt | hge'
          · exact up k y hlt hk2 hy
          · exact c k y hk1 hge' hy
        · intro hm k y hk hy
          rcases Nat.lt_or_ge j k with hlt | hge'
          · exact up k y hlt hk hy
          · exact h2 hm k y hge' hy
    · rename_i hlt
      refine ⟨fun j h => ?_, fun h => by cases h⟩
      cases h
      exact ⟨Nat.le_refl _, ⟨x, hx, by omega⟩, fun k y h1 h2 => by omega⟩

theorem nested_snoc {sets : List RegionSet} (hn : Nested sets) (x : RegionSet)
    (hp : x.parent = enclosing sets x.level (sets.length + 1) (if sets.length = 0 then none else some (sets.length - 1))) :
    Nested (sets ++ [x]) := by
  intro i y hy
  have old : ∀ k z, k < sets.length → ((sets ++ [x])[k]? = some z ↔ sets[k]? = some z) := by
    intro k z hk; rw [List.getElem?_append_left hk]
  rcases Nat.lt_or_ge i sets.length with hi | hi
  · rw [old i y hi] at hy
    have := hn i y hy
    split <;> rename_i hpar <;> rw [hpar] at this <;> dsimp only at this
    · intro k z hk hz; exact this k z hk ((old k z (by omega)).mp hz)
    · obtain ⟨a, ⟨z, b, c⟩, d⟩ := this
      exact ⟨a, ⟨z, (old _ z (by omega)).mpr b, c⟩, fun k z h1 h2 h3 => d k z h1 h2 ((old k z (by omega)).mp h3)⟩
  · have hil : i = sets.length := by
      have : i < (sets ++ [x]).length := (List.getElem?_eq_some_iff.mp hy).1
      simp at this; omega
    subst hil
    simp only [List.getElem?_concat_length, Option.some.injEq] at hy
    subst hy
    rw [hp]
    by_cases h0 : sets.length = 0
    · rw [if_pos h0]
      simp only [enclosing]
      intro k z hk; omega
    · rw [if_neg h0]
      obtain ⟨h1, h2⟩ := enclosing_spec hn x.level (sets.length + 1) (sets.length - 1) (by omega) (by omega)
      split
      · rename_i he
        intro k z hk hz
        exact h2 he k z (by omega) ((old k z (by omega)).mp hz)
      · rename_i j he
        obtain ⟨a, ⟨z, b, c⟩, d⟩ := h1 j he
        exact ⟨by omega, ⟨z, (old _ z (by omega)).mpr b, c⟩, fun k z h3 h4 h5 => d k z h3 (by omega) ((old k z (by omega)).mp h5)⟩

/-- The state after a header: the sets of before, and one more. -/
structure Opened (s s' : State ρ) (level limit : Nat) : Prop where
  sets : s'.sets = s.sets ++ [{ parent := enclosing s.sets level (s.sets.length + 1) s.current, level := level, limit := limit }]
  current : s'.current = some s.sets.length

theorem modify_last {α : Type} (f : α → α) : ∀ (l : List α) (x : α), (l ++ [x]).modify l.length f = l ++ [f x]
  | [], x => by simp
  | y :: l, x => by simp [modify_last f l x]

theorem setLimit_last {s s' : State ρ} {level limit n : Nat} (h : Opened s s' level limit) : Opened s (setLimit s' n) level n := by
  obtain ⟨h1, h2⟩ := h
  have e : setLimit s' n = { s' with sets := s'.sets.modify s.sets.length (fun x => { x with limit := n }) } := by
    unfold setLimit; rw [h2]
  rw [e]
  exact ⟨by dsimp only; rw [h1, modify_last], h2⟩

theorem currentSwitch_sets {s s' : State ρ} {k : Nat} (h : setCurrentSwitch s k = some s') : s'.sets = s.sets ∧ s'.current = s.current := by
  unfold setCurrentSwitch at h
  simp only [Option.bind_eq_bind, Option.bind_eq_some_iff, Option.pure_def, Option.some.injEq] at h
  obtain ⟨_, _, _, _, _, _, rfl⟩ := h
  exact ⟨rfl, rfl⟩

/-- The limit given by some opcodes. -/
def limitOf (os : List Op) (before : Nat) : Nat :=
  match lastValue "polyphony".toList os with
  | none => before
  | some v => (readPolyphony v).getD 256

theorem uppers_opened {s : State ρ} {level : Nat} : ∀ {os : List Op} {t s' : State ρ} {limit : Nat}, Opened s t level limit →
    handleUppers t os = some s' → Opened s s' level (limitOf os limit) := by
  intro os
  induction os using List.reverseRecOn with
  | nil => intro t s' limit h hs; cases hs; exact h
  | append_singleton os o ih =>
    intro t s' limit h hs
    unfold handleUppers at hs
    rw [List.foldlM_append] at hs
    simp only [Option.bind_eq_bind, Option.bind_eq_some_iff, List.foldlM_cons, List.foldlM_nil, Option.pure_def,
      Option.some.injEq, exists_eq_right] at hs
    obtain ⟨u, h1, h2⟩ := hs
    have hu := ih h h1
    unfold limitOf
    rw [lastValue_snoc]
    unfold handleUpper at h2
    split at h2
    · rename_i hp
      simp only [Option.map_eq_some_iff] at h2
      obtain ⟨n, hn, rfl⟩ := h2
      rw [if_pos hp]
      dsimp only
      rw [hn]
      exact setLimit_last hu
    · rename_i hp
      rw [if_neg hp]
      split at h2
      · simp only [Option.bind_eq_bind, Option.bind_eq_some_iff] at h2
        obtain ⟨k, _, h2⟩ := h2
        obtain ⟨e1, e2⟩ := currentSwitch_sets h2
        exact ⟨e1.trans hu.sets, e2.trans hu.current⟩
      · cases h2; exact hu

theorem group_fold : ∀ {os : List Op} {s : State ρ} {y : State ρ × Option Int × Option Nat},
    os.foldlM handleGroup1 (s, none, none) = some y →
    y.1.sets = s.sets ∧ y.1.current = s.current ∧ (y.2.1.isSome = true ↔ ∃ o ∈ os, o.name = "group".toList) ∧
    y.2.2 = (lastValue "polyphony".toList os).map (fun v => (readPolyphony v).getD 256) := by
  have d1 : ("group".toList : Text) ≠ "polyphony".toList := by decide
  intro os
  induction os using List.reverseRecOn with
  | nil => intro s y h; cases h; exact ⟨rfl, rfl, by simp, rfl⟩
  | append_singleton os o ih =>
    intro s y h
    rw [List.foldlM_append] at h
    simp only [Option.bind_eq_bind, Option.bind_eq_some_iff, List.foldlM_cons, List.foldlM_nil, Option.pure_def,
      Option.some.injEq, exists_eq_right] at h
    obtain ⟨x, h1, h2⟩ := h
    obtain ⟨a1, a2, a3, a4⟩ := ih h1
    rw [lastValue_snoc]
    have hex : (∃ p ∈ os ++ [o], p.name = "group".toList) ↔ (∃ p ∈ os, p.name = "group".toList) ∨ o.name = "group".toList := by
      constructor
      · rintro ⟨p, hp, hn⟩
        rcases List.mem_append.mp hp with hp | hp
        · exact Or.inl ⟨p, hp, hn⟩
        · rw [List.mem_singleton.mp hp] at hn; exact Or.inr hn
      · rintro (⟨p, hp, hn⟩ | hn)
        · exact ⟨p, List.mem_append_left _ hp, hn⟩
        · exact ⟨o, List.mem_append_right _ (List.mem_singleton.mpr rfl), hn⟩
    rw [hex]
    unfold handleGroup1 at h2
    split at h2
    · rename_i hg
      simp only [Option.map_eq_some_iff] at h2
      obtain ⟨g, _, rfl⟩ := h2
      rw [if_neg (by rw [hg]; exact d1)]
      exact ⟨a1, a2, by simp [hg], a4⟩
    · rename_i hg
      split at h2
      · rename_i hp
        simp only [Option.map_eq_some_iff] at h2
        obtain ⟨n, hn, rfl⟩ := h2
        rw [if_pos hp]
        refine ⟨a1, a2, ?_, by simp [hn]⟩
        rw [a3]; exact ⟨Or.inl, fun h => h.resolve_right hg⟩
      · rename_i hp
        rw [if_neg hp]
        split at h2
        · simp only [Option.bind_eq_bind, Option.bind_eq_some_iff, Option.pure_def, Option.some.injEq] at h2
          obtain ⟨k, _, t, h3, rfl⟩ := h2
          obtain ⟨e1, e2⟩ := currentSwitch_sets h3
          refine ⟨e1.trans a1, e2.trans a2, ?_, a4⟩
          rw [a3]; exact ⟨Or.inl, fun h => h.resolve_right hg⟩
        · cases h2
          refine ⟨a1, a2, ?_, a4⟩
          rw [a3]; exact ⟨Or.inl, fun h => h.resolve_right hg⟩

theorem groups_opened {s t s' : State ρ} {level : Nat} {a b : List Op} (h : Opened s t level 256)
    (hs : handleGroups t a b = some s') :
    Opened s s' level (if ∃ o ∈ b ++ a, o.name = "group".toList then 256 else limitOf (b ++ a) 256) := by
  unfold handleGroups at hs
  simp only [Option.bind_eq_bind, Option.bind_eq_some_iff, Option.pure_def, Option.some.injEq] at hs
  obtain ⟨y, hy, rfl⟩ := hs
  obtain ⟨a1, a2, a3, a4⟩ := group_fold hy
  have hy1 : Opened s y.1 level 256 := ⟨a1.trans h.sets, a2.trans h.current⟩
  obtain ⟨u, g, n⟩ := y
  dsimp only at a3 a4 hy1 ⊢
  unfold limitOf
  cases g with
  | none =>
    rw [if_neg (by rw [← a3]; simp)]
    cases hl : lastValue "polyphony".toList (b ++ a) with
    | none => rw [hl] at a4; subst a4; exact hy1
    | some v => rw [hl] at a4; subst a4; exact setLimit_last hy1
  | some g =>
    rw [if_pos (by rw [← a3]; simp)]
    cases n with
    | none => exact ⟨hy1.sets, hy1.current⟩
    | some n => exact ⟨hy1.sets, hy1.current⟩

theorem control_sets : ∀ {os : List Op} {s s' : State ρ}, handleControl s os = some s' → s'.sets = s.sets ∧ s'.current = s.current := by
  intro os
  induction os with
  | nil => intro s s' h; cases h; exact ⟨rfl, rfl⟩
  | cons o os ih =>
    intro s s' h
    simp only [handleControl, List.foldlM_cons, Option.bind_eq_bind, Option.bind_eq_some_iff] at h
    obtain ⟨t, h1, h2⟩ := h
    obtain ⟨e1, e2⟩ := ih h2
    rw [e1, e2]
    unfold handleControl1 at h1
    split at h1
    · cases h1; exact ⟨rfl, rfl⟩
    · split at h1
      · simp only [Option.map_eq_some_iff] at h1; obtain ⟨_, _, rfl⟩ := h1; exact ⟨rfl, rfl⟩
      · split at h1
        · simp only [Option.map_eq_some_iff] at h1; obtain ⟨_, _, rfl⟩ := h1; exact ⟨rfl, rfl⟩
        · split at h1
          · unfold setCC at h1
            split at h1
            · cases h1
            · split at h1
              · split at h1
                · cases h1; exact ⟨rfl, rfl⟩
                · cases h1
              · cases h1; exact ⟨rfl, rfl⟩
          · cases h1; exact ⟨rfl, rfl⟩

/-- One block and the sets. -/
theorem block_sets {L : Lang ρ} {file : List Block} {t s : State ρ} {b : Block} (ht : load L file = some t) (h : onBlock L t b = some s) :
    (∀ n, rank b.header = some n → Opened t s n (allowed file b)) ∧
    (rank b.header = none → s.sets = t.sets ∧ s.current = t.current) := by
  have A := agrees ht
  obtain ⟨hd, members⟩ := b
  unfold onBlock at h
  cases hd <;> dsimp only at h
  · refine ⟨fun n hn => ?_, fun hn => by cases hn⟩
    cases hn
    have := uppers_opened (s := t) (level := 1) (limit := 256) ⟨rfl, rfl⟩ h
    have e : allowed file ⟨.global, members⟩ = limitOf members 256 := by
      unfold allowed limitOf
      dsimp only
      rw [if_neg (fun hh => by cases hh.1), if_neg (by decide)]
    rw [e]; exact this
  · exact ⟨fun n hn => (by cases hn), fun _ => by have := control_sets h; exact ⟨this.1, this.2⟩⟩
  · refine ⟨fun n hn => ?_, fun hn => by cases hn⟩
    cases hn
    have := uppers_opened (s := t) (level := 3) (limit := 256) ⟨rfl, rfl⟩ h
    have e : allowed file ⟨.master, members⟩ = limitOf members 256 := by
      unfold allowed limitOf
      dsimp only
      rw [if_neg (fun hh => by cases hh.1), if_neg (by decide)]
    rw [e]; exact this
  · refine ⟨fun n hn => ?_, fun hn => by cases hn⟩
    cases hn
    have := groups_opened (s := t) (level := 4) ⟨rfl, rfl⟩ h
    rw [A.masters] at this
    have e : allowed file ⟨.group, members⟩ = (if ∃ o ∈ lastOf .master [.global] file ++ members, o.name = "group".toList then 256
        else limitOf (lastOf .master [.global] file ++ members) 256) := by
      unfold allowed limitOf
      dsimp only
      rw [if_pos rfl]
      by_cases hg : ∃ o ∈ lastOf .master [.global] file ++ members, o.name = "group".toList
      · rw [if_pos ⟨rfl, hg⟩, if_pos hg]
      · rw [if_neg (fun hh => hg hh.2), if_neg hg]
    rw [e]; exact this
  · refine ⟨fun n hn => (by cases hn), fun _ => ?_⟩
    obtain ⟨_, _, _, _, _, _, _, _, _, _, _, _, h1, h2, _⟩ := buildRegion_spec h
    exact ⟨h1, h2⟩
  · cases h; exact ⟨fun n hn => (by cases hn), fun _ => ⟨rfl, rfl⟩⟩

theorem setsIn_snoc (file : List Block) (b : Block) :
    setsIn (file ++ [b]) = setsIn file + (if (rank b.header).isSome then 1 else 0) := by
  unfold setsIn
  rw [List.filter_append, List.length_append]
  by_cases h : (rank b.header).isSome = true <;> simp [h]

theorem sets_shape {L : Lang ρ} : ∀ {file : List Block} {s : State ρ}, load L file = some s →
    s.sets.length = setsIn file ∧ s.current = (if setsIn file = 0 then none else some (setsIn file - 1)) ∧ Nested s.sets := by
  intro file
  induction file using List.reverseRecOn with
  | nil => intro s h; cases h; exact ⟨rfl, rfl, fun i x hx => by simp at hx⟩
  | append_singleton file b ih =>
    intro s h
    obtain ⟨t, h1, h2⟩ := load_snoc h
    obtain ⟨a1, a2, a3⟩ := ih h1
    obtain ⟨b1, b2⟩ := block_sets h1 h2
    rw [setsIn_snoc]
    cases hr : rank b.header with
    | none =>
      obtain ⟨e1, e2⟩ := b2 hr
      rw [e1, e2]
      exact ⟨a1, a2, a3⟩
    | some n =>
      have O := b1 n hr
      refine ⟨by rw [O.sets, List.length_append, a1]; rfl, by rw [O.current, a1]; simp, ?_⟩
      rw [O.sets]
      apply nested_snoc a3
      dsimp only
      rw [a2, a1]

theorem sets_stay {L : Lang ρ} : ∀ {post file : List Block} {t s : State ρ}, load L file = some t →
    post.foldlM (onBlock L) t = some s → ∃ more, s.sets = t.sets ++ more := by
  intro post
  induction post with
  | nil => intro file t s _ h; cases h; exact ⟨[], by simp⟩
  | cons b post ih =>
    intro file t s ht h
    simp only [List.foldlM_cons, Option.bind_eq_bind, Option.bind_eq_some_iff] at h
    obtain ⟨u, h1, h2⟩ := h
    have hu : load L (file ++ [b]) = some u := by
      unfold load at ht ⊢
      rw [List.foldlM_append, ht]
      simpa using h1
    obtain ⟨more, hm⟩ := ih hu h2
    obtain ⟨b1, b2⟩ := block_sets ht h1
    cases hr : rank b.header with
    | none => exact ⟨more, by rw [hm, (b2 hr).1]⟩
    | some n => exact ⟨_ :: more, by rw [hm, (b1 n hr).sets, List.append_assoc]; rfl⟩

/-! ### C68 -/

/-- C68: each global, master or group header makes one set, of its level, with the polyphony that the header allows; and the
sets are nested: the parent of a set is the nearest set before it of an outer level. -/
theorem header_sets (L : Lang ρ) (before after : List Block) (b : Block) (n : Nat) (s : State ρ) (hb : rank b.header = some n)
    (h : load L (before ++ b :: after) = some s) :
    (∃ parent, s.sets[setsIn before]? = some { parent := parent, level := n, limit := allowed before b }) ∧
    s.sets.length = setsIn (before ++ b :: after) ∧ Nested s.sets := by
  obtain ⟨c1, _, c3⟩ := sets_shape h
  refine ⟨?_, c1, c3⟩
  unfold load at h
  rw [List.foldlM_append] at h
  simp only [Option.bind_eq_bind, Option.bind_eq_some_iff, List.foldlM_cons] at h
  obtain ⟨t, h1, u, h2, h3⟩ := h
  have hu : load L (before ++ [b]) = some u := by
    unfold load
    rw [List.foldlM_append, h1]
    simpa using h2
  obtain ⟨more, hm⟩ := sets_stay hu h3
  have O := (block_sets h1 h2).1 n hb
  obtain ⟨a1, _, _⟩ := sets_shape h1
  refine ⟨enclosing t.sets n (t.sets.length + 1) t.current, ?_⟩
  rw [hm, O.sets, ← a1, List.append_assoc, List.getElem?_append_right (by omega)]
  simp

/-- C68: a region belongs to the set of the last header before it (to none if there is none). -/
theorem region_set (L : Lang ρ) (before after : List Block) (own : List Op) (s : State ρ)
    (h : load L (before ++ ⟨.region, own⟩ :: after) = some s) :
    ∃ r, s.layers[regionsIn before]? = some (r, if setsIn before = 0 then none else some (setsIn before - 1)) := by
  unfold load at h
  rw [List.foldlM_append] at h
  simp only [Option.bind_eq_bind, Option.bind_eq_some_iff, List.foldlM_cons] at h
  obtain ⟨t, h1, u, h2, h3⟩ := h
  obtain ⟨more, hm⟩ := layers_stay h3
  obtain ⟨x, r, _, _, hl, _⟩ := buildRegion_spec h2
  have A := agrees h1
  refine ⟨r, ?_⟩
  rw [hm, hl, List.append_assoc, List.getElem?_append_right (by rw [A.count]), (sets_shape h1).2.1]
  simp [A.count]

/-- A file of two masters: the sets, their parents and limits, and the sets of the regions. -/
example : (load (sfz (fun _ => true)) [⟨.global, [op "polyphony" "20"]⟩, ⟨.master, [op "polyphony" "8"]⟩, ⟨.group, []⟩, ⟨.region, []⟩,
    ⟨.group, [op "group" "1", op "polyphony" "2"]⟩, ⟨.region, []⟩, ⟨.master, []⟩, ⟨.region, []⟩]).map
      (fun s => (s.sets, s.layers.map Prod.snd, s.limits 1)) =
    some ([⟨none, 1, 20⟩, ⟨some 0, 3, 8⟩, ⟨some 1, 4, 8⟩, ⟨some 1, 4, 256⟩, ⟨some 0, 3, 256⟩], [some 2, some 3, some 4], some 2) := by
  decide +kernel

end Verif.Loader
