import Verif.Loader.Sets

/-!
C146: the polyphony of groups. `group` and `polyphony`, in a group header or on a region, limit the voices of a polyphony group.
-/
namespace Verif.Loader
open Verif.Opcode

variable {ρ : Type}

/-! ### Specification -/

/-- What a header says of a polyphony group: its number, and a limit or none.
A group header: the last `group`, and the last `polyphony`, of the header and of the master header in force.
A region: its `group`, and its `polyphony` unless that is 256, or the group is 0; `rs` are the regions of the file. -/
def groupSaid (L : Lang ρ) (rs : List ρ) (before : List Block) (b : Block) : Option (Int × Option Nat) :=
  match b.header with
  | .group =>
    (lastValue "group".toList (lastOf .master [.global] before ++ b.members)).map (fun v => ((readGroup v).getD 0,
      (lastValue "polyphony".toList (lastOf .master [.global] before ++ b.members)).map (fun v => (readPolyphony v).getD 256)))
  | .region => rs[regionsIn before]?.map (fun r => (L.group r, if L.group r = 0 ∨ L.polyphony r = 256 then none else some (L.polyphony r)))
  | _ => none

/-- All that a file says of groups. -/
def groupsSaid (L : Lang ρ) (rs : List ρ) : List Block → List Block → List (Int × Option Nat)
  | _, [] => []
  | before, b :: bs => (groupSaid L rs before b).toList ++ groupsSaid L rs (before ++ [b]) bs

/-- The limit of group `k`: the last one said, 256 if none is; `none` when there is no such group. Groups are told apart by the
last 32 bits of their numbers; group 0 always exists. -/
def limitSaid (k : Int) (xs : List (Int × Option Nat)) : Option Nat :=
  if k ≠ 0 ∧ xs.filter (fun x => toInt x.1 = k) = [] then none
  else some (((xs.filter (fun x => toInt x.1 = k)).filterMap (·.2)).getLast?.getD 256)

/-! ### Lemmas -/

theorem limitSaid_snoc (k : Int) (xs : List (Int × Option Nat)) (x : Int × Option Nat) :
    limitSaid k (xs ++ [x]) = if toInt x.1 = k then some (x.2.getD ((limitSaid k xs).getD 256)) else limitSaid k xs := by
  unfold limitSaid
  rw [List.filter_append]
  by_cases h : toInt x.1 = k
  · rw [if_pos h]
    have e : [x].filter (fun x => toInt x.1 = k) = [x] := by simp [h]
    rw [e, if_neg (by simp)]
    cases hx : x.2 with
    | some n => simp [List.filterMap_append, hx]
    | none =>
      simp only [List.filterMap_append, List.filterMap_cons, hx, List.filterMap_nil, List.append_nil, Option.getD_none]
      by_cases h0 : k ≠ 0 ∧ xs.filter (fun x => toInt x.1 = k) = []
      · rw [if_pos h0, h0.2]; rfl
      · rw [if_neg h0]; rfl
  · rw [if_neg h]
    have e : [x].filter (fun x => toInt x.1 = k) = [] := by simp [h]
    rw [e, List.append_nil]

theorem groupsSaid_snoc (L : Lang ρ) (rs : List ρ) : ∀ (file before : List Block) (b : Block),
    groupsSaid L rs before (file ++ [b]) = groupsSaid L rs before file ++ (groupSaid L rs (before ++ file) b).toList
  | [], before, b => by simp [groupsSaid]
  | a :: file, before, b => by
    rw [List.cons_append, groupsSaid, groupsSaid, groupsSaid_snoc L rs file (before ++ [a]) b]
    simp [List.append_assoc]

theorem regionsIn_mono (a b : List Block) : regionsIn a ≤ regionsIn (a ++ b) := by
  unfold regionsIn
  rw [List.filter_append, List.length_append]
  omega

theorem groupsSaid_more (L : Lang ρ) (rs more : List ρ) : ∀ (file before : List Block), regionsIn (before ++ file) ≤ rs.length →
    groupsSaid L (rs ++ more) before file = groupsSaid L rs before file
  | [], _, _ => rfl
  | b :: file, before, h => by
    have h' : before ++ b :: file = (before ++ [b]) ++ file := by simp
    rw [h'] at h
    rw [groupsSaid, groupsSaid, groupsSaid_more L rs more file (before ++ [b]) h]
    have hb := regionsIn_mono (before ++ [b]) file
    congr 2
    unfold groupSaid
    split
    · rfl
    · rename_i hr
      rw [regionsIn_snoc] at hb
      have : regionsIn before < rs.length := by
        simp only [hr, if_true] at hb
        omega
      rw [List.getElem?_append_left this]
    · rfl

theorem switch_limits {s s' : State ρ} {k : Nat} (h : setCurrentSwitch s k = some s') : s'.limits = s.limits := by
  unfold setCurrentSwitch at h
  simp only [Option.bind_eq_bind, Option.bind_eq_some_iff, Option.pure_def, Option.some.injEq] at h
  obtain ⟨_, _, _, _, _, _, rfl⟩ := h
  rfl

theorem setLimit_limits (s : State ρ) (n : Nat) : (setLimit s n).limits = s.limits := by
  unfold setLimit
  split <;> rfl

theorem uppers_limits : ∀ {os : List Op} {s s' : State ρ}, handleUppers s os = some s' → s'.limits = s.limits := by
  intro os
  induction os with
  | nil => intro s s' h; cases h; rfl
  | cons o os ih =>
    intro s s' h
    simp only [handleUppers, List.foldlM_cons, Option.bind_eq_bind, Option.bind_eq_some_iff] at h
    obtain ⟨t, h1, h2⟩ := h
    rw [ih h2]
    unfold handleUpper at h1
    split at h1
    · simp only [Option.map_eq_some_iff] at h1
      obtain ⟨_, _, rfl⟩ := h1
      exact setLimit_limits _ _
    · split at h1
      · simp only [Option.bind_eq_bind, Option.bind_eq_some_iff] at h1
        obtain ⟨_, _, h1⟩ := h1
        exact switch_limits h1
      · cases h1; rfl

theorem control_limits : ∀ {os : List Op} {s s' : State ρ}, handleControl s os = some s' → s'.limits = s.limits := by
  intro os
  induction os with
  | nil => intro s s' h; cases h; rfl
  | cons o os ih =>
    intro s s' h
    simp only [handleControl, List.foldlM_cons, Option.bind_eq_bind, Option.bind_eq_some_iff] at h
    obtain ⟨t, h1, h2⟩ := h
    rw [ih h2]
    unfold handleControl1 at h1
    split at h1
    · cases h1; rfl
    · split at h1
      · simp only [Option.map_eq_some_iff] at h1; obtain ⟨_, _, rfl⟩ := h1; rfl
      · split at h1
        · simp only [Option.map_eq_some_iff] at h1; obtain ⟨_, _, rfl⟩ := h1; rfl
        · split at h1
          · unfold setCC at h1
            split at h1
            · cases h1
            · split at h1
              · split at h1
                · cases h1; rfl
                · cases h1
              · cases h1; rfl
          · cases h1; rfl

theorem group_fold_limits : ∀ {os : List Op} {s : State ρ} {y : State ρ × Option Int × Option Nat},
    os.foldlM handleGroup1 (s, none, none) = some y →
    y.1.limits = s.limits ∧ y.2.1 = (lastValue "group".toList os).map (fun v => (readGroup v).getD 0) := by
  have d1 : ("polyphony".toList : Text) ≠ "group".toList := by decide
  have d2 : ("sw_default".toList : Text) ≠ "group".toList := by decide
  intro os
  induction os using List.reverseRecOn with
  | nil => intro s y h; cases h; exact ⟨rfl, rfl⟩
  | append_singleton os o ih =>
    intro s y h
    rw [List.foldlM_append] at h
    simp only [Option.bind_eq_bind, Option.bind_eq_some_iff, List.foldlM_cons, List.foldlM_nil, Option.pure_def,
      Option.some.injEq, exists_eq_right] at h
    obtain ⟨x, h1, h2⟩ := h
    obtain ⟨a1, a2⟩ := ih h1
    rw [lastValue_snoc]
    unfold handleGroup1 at h2
    split at h2
    · rename_i hg
      simp only [Option.map_eq_some_iff] at h2
      obtain ⟨g, hg', rfl⟩ := h2
      rw [if_pos hg]
      exact ⟨a1, by simp [hg']⟩
    · rename_i hg
      rw [if_neg hg]
      split at h2
      · simp only [Option.map_eq_some_iff] at h2
        obtain ⟨n, _, rfl⟩ := h2
        exact ⟨a1, a2⟩
      · split at h2
        · simp only [Option.bind_eq_bind, Option.bind_eq_some_iff, Option.pure_def, Option.some.injEq] at h2
          obtain ⟨k, _, t, h3, rfl⟩ := h2
          exact ⟨(switch_limits h3).trans a1, a2⟩
        · cases h2
          exact ⟨a1, a2⟩

theorem handleGroups_limits {s s' : State ρ} {a b : List Op} (h : handleGroups s a b = some s') (k : Int) :
    s'.limits k = match lastValue "group".toList (b ++ a) with
      | none => s.limits k
      | some v => if toInt ((readGroup v).getD 0) = k then
          some (((lastValue "polyphony".toList (b ++ a)).map (fun v => (readPolyphony v).getD 256)).getD ((s.limits k).getD 256))
        else s.limits k := by
  unfold handleGroups at h
  simp only [Option.bind_eq_bind, Option.bind_eq_some_iff, Option.pure_def, Option.some.injEq] at h
  obtain ⟨y, hy, rfl⟩ := h
  obtain ⟨l1, l2⟩ := group_fold_limits hy
  obtain ⟨_, _, _, a4⟩ := group_fold hy
  obtain ⟨u, g, n⟩ := y
  dsimp only at l1 l2 a4 ⊢
  cases hv : lastValue "group".toList (b ++ a) with
  | none =>
    rw [hv] at l2
    subst l2
    cases n with
    | none => simp only [applyGroup, Option.map_none]; rw [l1]
    | some n => simp only [applyGroup, Option.map_none]; rw [setLimit_limits, l1]
  | some v =>
    rw [hv] at l2
    subst l2
    dsimp only
    rw [← a4]
    cases n with
    | none =>
      simp only [applyGroup, Option.map_some, ensureGroup, Option.getD_none]
      rw [l1]
      by_cases hk : k = toInt ((readGroup v).getD 0)
      · rw [if_pos hk, if_pos hk.symm]
      · rw [if_neg hk, if_neg (fun e => hk e.symm)]
    | some n =>
      simp only [applyGroup, Option.map_some, setGroupPolyphony, Option.getD_some]
      rw [l1]
      by_cases hk : k = toInt ((readGroup v).getD 0)
      · rw [if_pos hk, if_pos hk.symm]
      · rw [if_neg hk, if_neg (fun e => hk e.symm)]

theorem enterRegion_limits {L : Lang ρ} {s s' : State ρ} {r : ρ} (h : enterRegion L s r = some s') (k : Int) :
    s'.limits k = if toInt (L.group r) = k then
        some ((if L.group r = 0 ∨ L.polyphony r = 256 then none else some (L.polyphony r)).getD ((s.limits k).getD 256))
      else s.limits k := by
  have go : ∀ t : State ρ, ∀ t' : State ρ, t.limits = s.limits →
      t' = (let s := if L.group r ≠ 0 ∧ L.polyphony r ≠ 256 then setGroupPolyphony t (L.group r) (L.polyphony r)
        else ensureGroup t (L.group r)
        { s with layers := s.layers ++ [(r, s.current)] }) →
      t'.limits k = if toInt (L.group r) = k then
        some ((if L.group r = 0 ∨ L.polyphony r = 256 then none else some (L.polyphony r)).getD ((s.limits k).getD 256))
      else s.limits k := by
    intro t t' hl ht
    subst ht
    dsimp only
    by_cases hc : L.group r ≠ 0 ∧ L.polyphony r ≠ 256
    · rw [if_pos hc, if_neg (show ¬ (L.group r = 0 ∨ L.polyphony r = 256) by tauto)]
      simp only [setGroupPolyphony, Option.getD_some, hl]
      by_cases hk : k = toInt (L.group r)
      · rw [if_pos hk, if_pos hk.symm]
      · rw [if_neg hk, if_neg (fun e => hk e.symm)]
    · rw [if_neg hc, if_pos (show (L.group r = 0 ∨ L.polyphony r = 256) by tauto)]
      simp only [ensureGroup, Option.getD_none, hl]
      by_cases hk : k = toInt (L.group r)
      · rw [if_pos hk, if_pos hk.symm]
      · rw [if_neg hk, if_neg (fun e => hk e.symm)]
  unfold enterRegion at h
  split at h
  case isFalse => cases h
  dsimp only at h
  split at h
  · simp only [Option.some.injEq] at h
    exact go s s' rfl h.symm
  · simp only [Option.map_eq_some_iff] at h
    obtain ⟨t, ht, h⟩ := h
    exact go t s' (switch_limits ht) h.symm

/-! ### C146 -/

/-- **The limit of every polyphony group is the one which the file says.** -/
theorem group_limits (L : Lang ρ) : ∀ (file : List Block) (s : State ρ), load L file = some s →
    ∀ k, s.limits k = limitSaid k (groupsSaid L (s.layers.map Prod.fst) [] file) := by
  intro file
  induction file using List.reverseRecOn with
  | nil =>
    intro s h k
    cases h
    simp only [groupsSaid, limitSaid, List.filter_nil, and_true, List.filterMap_nil, List.getLast?_nil, Option.getD_none]
    by_cases hk : k = 0 <;> simp [hk]
  | append_singleton file b ih =>
    intro s h k
    obtain ⟨t, h1, h2⟩ := load_snoc h
    have A := agrees h1
    have iht := ih t h1 k
    have hlen : (t.layers.map Prod.fst).length = regionsIn file := by rw [List.length_map, A.count]
    rw [groupsSaid_snoc, List.nil_append]
    obtain ⟨hd, members⟩ := b
    have same : s.layers = t.layers → s.limits k = t.limits k → hd ≠ .group → hd ≠ .region →
        s.limits k = limitSaid k (groupsSaid L (s.layers.map Prod.fst) [] file ++ (groupSaid L (s.layers.map Prod.fst) file ⟨hd, members⟩).toList) := by
      intro e1 e2 n1 n2
      have : groupSaid L (s.layers.map Prod.fst) file ⟨hd, members⟩ = none := by
        unfold groupSaid
        cases hd <;> first | rfl | exact absurd rfl n1 | exact absurd rfl n2
      rw [this, Option.toList_none, List.append_nil, e1, e2, iht]
    unfold onBlock at h2
    cases hd <;> dsimp only at h2
    · exact same (by rw [(handleUppers_frame h2).layers]; rfl) (by rw [uppers_limits h2]; rfl) (by decide) (by decide)
    · exact same (by rw [(control_all h2).1.layers]) (by rw [control_limits h2]) (by decide) (by decide)
    · exact same (by rw [(handleUppers_frame h2).layers]; rfl) (by rw [uppers_limits h2]; rfl) (by decide) (by decide)
    · have e := handleGroups_limits h2 k
      have hl : s.layers = t.layers := by rw [(handleGroups_frame h2).layers]; rfl
      have hlim : (newRegionSet { t with groups := members } 4).limits = t.limits := rfl
      have hm : (newRegionSet { t with groups := members } 4).masters = t.masters := rfl
      rw [hlim] at e
      rw [A.masters] at e
      rw [e, hl]
      unfold groupSaid
      dsimp only
      cases hv : lastValue "group".toList (lastOf .master [.global] file ++ members) with
      | none =>
        simp only [Option.map_none, Option.toList_none, List.append_nil]
        exact iht
      | some v =>
        simp only [Option.map_some, Option.toList_some]
        rw [limitSaid_snoc, ← iht]
    · have hb := h2
      unfold buildRegion at hb
      simp only [Option.bind_eq_bind, Option.bind_eq_some_iff] at hb
      obtain ⟨x, _, r, _, hent⟩ := hb
      have e := enterRegion_limits hent k
      have hl : s.layers = t.layers ++ [(r, t.current)] := (enterRegion_spec hent).1
      have hlim : ({ t with unknown := x.2 } : State ρ).limits = t.limits := rfl
      rw [hlim] at e
      rw [hl, List.map_append, groupsSaid_more L _ _ file [] (by rw [hlen]; exact le_refl _)]
      have hget : (t.layers.map Prod.fst ++ [(r, t.current)].map Prod.fst)[regionsIn file]? = some r := by
        rw [← hlen, List.getElem?_append_right (le_refl _)]
        simp
      unfold groupSaid
      dsimp only
      rw [hget]
      simp only [Option.map_some, Option.toList_some]
      rw [limitSaid_snoc, ← iht, e]
    · cases h2
      exact same rfl rfl (by decide) (by decide)

/-- `group_limits` on a file: limits of groups 1 and 2 from headers, the last one counts; group 3 without a limit; no group 4. -/
example : (load (sfz (fun _ => true)) [⟨.group, [op "group" "1", op "polyphony" "2"]⟩, ⟨.region, []⟩, ⟨.region, [op "polyphony" "7"]⟩,
    ⟨.group, []⟩, ⟨.region, [op "group" "2", op "polyphony" "5"]⟩, ⟨.region, [op "group" "3"]⟩]).map
      (fun s => ([0, 1, 2, 3, 4].map s.limits, [0, 1, 2, 3, 4].map (fun k => limitSaid k (groupsSaid (sfz (fun _ => true)) (s.layers.map Prod.fst) []
        [⟨.group, [op "group" "1", op "polyphony" "2"]⟩, ⟨.region, []⟩, ⟨.region, [op "polyphony" "7"]⟩,
         ⟨.group, []⟩, ⟨.region, [op "group" "2", op "polyphony" "5"]⟩, ⟨.region, [op "group" "3"]⟩])))) =
    some ([some 256, some 7, some 5, some 256, none], [some 256, some 7, some 5, some 256, none]) := by decide +kernel

/-- **A limit of 256 violated**: `polyphony=256` on a later region does not lift the limit of its group. -/
theorem lift_violated :
    (load (sfz (fun _ => true)) [⟨.region, [op "group" "1", op "polyphony" "2"]⟩, ⟨.region, [op "group" "1", op "polyphony" "256"]⟩]).map
      (fun s => s.limits 1) = some (some 2) := by decide +kernel

/-- **The limit of a region violated**: `polyphony` on a region without `group` limits nothing. -/
theorem region_polyphony_violated :
    (load (sfz (fun _ => true)) [⟨.group, []⟩, ⟨.region, [op "polyphony" "1"]⟩]).map
      (fun s => (s.limits 0, s.sets)) = some (some 256, [⟨none, 4, 256⟩]) := by decide +kernel

/-- **Large groups violated**: groups -1 and 4294967295 are the same group. -/
theorem group_wrap_violated :
    (load (sfz (fun _ => true)) [⟨.region, [op "group" "4294967295", op "polyphony" "2"]⟩]).map
      (fun s => (s.limits 4294967295, s.limits (-1))) = some (none, some 2) := by decide +kernel

end Verif.Loader
