import Verif.Loader.Props
import Verif.Opcode.Props
import Verif.BitArray.Props

/-!
C48: controller numbers; C52: keys. Whatever the file.
-/
namespace Verif.Loader
open Verif.Opcode Verif.Range

/-! ### The text by which an opcode is recognised -/

theorem foldl_filter_amp (f : UInt64 → Char → UInt64) : ∀ (a : Text) (h : UInt64),
    a.foldl (fun h c => if c = '&' then h else f h c) h = (a.filter (· ≠ '&')).foldl f h := by
  intro a
  induction a with
  | nil => intro h; rfl
  | cons c a ih =>
    intro h
    by_cases hc : c = '&'
    · rw [List.foldl_cons, if_pos hc, ih, List.filter_cons_of_neg (by simp [hc])]
    · rw [List.foldl_cons, if_neg hc, ih, List.filter_cons_of_pos (by simp [hc]), List.foldl_cons]

theorem hashNoAmpersand_filter (a : Text) (h : UInt64) : hashNoAmpersand a h = Opcode.hash (a.filter (· ≠ '&')) h :=
  foldl_filter_amp hashByte a h

theorem seenFrom_scan : ∀ (k : Nat) (s : Text), s.length ≤ k → ∀ (t : Text) (ps : List Nat),
    scan s { hash := Opcode.hash t, parameters := ps } =
      { hash := Opcode.hash (seenFrom s (t, ps)).1, parameters := (seenFrom s (t, ps)).2 } := by
  intro k
  induction k with
  | zero =>
    intro s hs t ps
    have : s = [] := List.length_eq_zero_iff.mp (by omega)
    subst this
    unfold scan seenFrom
    simp [hashNoAmpersand]
  | succ k ih =>
    intro s hs t ps
    unfold scan seenFrom
    dsimp only
    rw [hashNoAmpersand_filter, ← hash_append]
    split
    · rename_i h; split
      · rfl
      · rename_i h'; rw [h] at h'; cases h'
    · rename_i d rest h
      split
      · rename_i h'; rw [h] at h'; cases h'
      · rename_i d' rest' h'
        rw [h] at h'; cases h'
        have h1 : (d :: rest).length ≤ s.length := h ▸ dropWhile_lt
        have hd : isDigit d = true := by
          have hh := @List.head?_dropWhile_not Char (fun c => !isDigit c) s
          rw [h] at hh
          simpa using hh
        have h2 : ((d :: rest).dropWhile isDigit).length ≤ rest.length := by
          rw [List.dropWhile_cons_of_pos hd]; exact dropWhile_lt
        simp only [List.length_cons] at h1
        unfold addNumber
        split
        · rename_i hlt
          dsimp only
          rw [← hash_append]
          exact ih _ (by omega) _ _
        · rename_i hlt
          exact ih _ (by omega) _ _

/-- `seen` gives the text that is hashed by the constructor of `Opcode`, and the same parameters. -/
theorem seen_hash (name : Text) :
    (decompose name).hash = Opcode.hash (seen name).1 ∧ (decompose name).parameters = (seen name).2 := by
  have := seenFrom_scan _ (trim name) (Nat.le_refl _) [] []
  unfold decompose seen
  have e : ({} : Parts) = { hash := Opcode.hash [], parameters := [] } := rfl
  rw [e, this]
  exact ⟨rfl, rfl⟩

/-! ### Invariants of regions -/

/-- A property of regions kept by opcodes and by transpositions holds for all the regions of a file. -/
theorem all_regions {ρ : Type} (L : Lang ρ) (P : ρ → Prop) (file : List Block) (s : State ρ)
    (hfresh : ∀ n path, P (L.fresh n path))
    (hparse : ∀ o ∈ opcodes file, ∀ r r' b, P r → L.parse r o = some (r', b) → P r')
    (hoffset : ∀ d r r', P r → L.offset d r = some r' → P r')
    (h : load L file = some s) : ∀ l ∈ s.layers, P l.1 := by
  induction file using List.reverseRecOn generalizing s with
  | nil => cases h; intro l hl; cases hl
  | append_singleton file b ih =>
    obtain ⟨t, h1, h2⟩ := load_snoc h
    have hop : opcodes (file ++ [b]) = opcodes file ++ b.members := by simp [opcodes]
    rw [hop] at hparse
    have ih := ih t (fun o ho => hparse o (List.mem_append_left _ ho)) h1
    have A := agrees h1
    obtain ⟨hd, members⟩ := b
    unfold onBlock at h2
    cases hd <;> simp only at h2
    · rw [(handleUppers_frame h2).layers]; exact ih
    · rw [(control_all h2).1.layers]; exact ih
    · rw [(handleUppers_frame h2).layers]; exact ih
    · rw [(handleGroups_frame h2).layers]; exact ih
    · obtain ⟨x, r, hx, ht, hl, _⟩ := buildRegion_spec h2
      rw [A.globals, A.masters, A.groups] at hx
      have hall : ∀ (os : List Op) (r0 : ρ) (u : List Text) (y : ρ × List Text),
          (∀ o ∈ os, o ∈ opcodes file ++ members) → P r0 → parseAll L r0 u os = some y → P y.1 := by
        intro os
        induction os with
        | nil => intro r0 u y _ hp hy; cases hy; exact hp
        | cons o os ihos =>
          intro r0 u y hm hp hy
          have hm' := fun q hq => hm q (List.mem_cons_of_mem _ hq)
          unfold parseAll at hy
          split at hy
          · exact ihos _ _ _ hm' hp hy
          · split at hy
            · cases hy
            · rename_i r1 hr1
              exact ihos _ _ _ hm' (hparse o (hm o List.mem_cons_self) _ _ _ hp hr1) hy
            · rename_i r1 hr1
              exact ihos _ _ _ hm' (hparse o (hm o List.mem_cons_self) _ _ _ hp hr1) hy
      have hx1 : P x.1 := hall _ _ _ _ (by
        intro o ho
        rcases List.mem_append.mp ho with ho | ho
        · exact List.mem_append_left _ (mem_inherited ho)
        · exact List.mem_append_right _ ho) (hfresh _ _) hx
      have hr : P r := by
        unfold transpose at ht
        split at ht
        · split at ht
          · cases ht
          · exact hoffset _ _ _ hx1 ht
        · cases ht; exact hx1
      rw [hl]
      intro l hmem
      rcases List.mem_append.mp hmem with hmem | hmem
      · exact ih l hmem
      · rw [List.mem_singleton.mp hmem]; exact hr
    · cases h2; exact ih

/-! ### C48 -/

/-- The controller number of an opcode name: its last number. -/
def lastNumber (name : Text) : Option Nat := (decompose name).parameters.getLast?

theorem parseKind_ccs {r r' : Region} {v : Text} {k : Kind} (h : parseKind r v k = some r') : r'.ccs = r.ccs := by
  cases k <;> simp only [parseKind, setLast] at h
  all_goals
    first
    | (simp only [Option.map_eq_some_iff] at h; obtain ⟨x, _, rfl⟩ := h; rfl)
    | (split at h
       · cases h; rfl
       · simp only [Option.map_eq_some_iff] at h; obtain ⟨x, _, rfl⟩ := h; rfl)

theorem guard_loose {t : Text} (h : guardOf t = some .loose) : t ∈ looseNames := by
  unfold guardOf at h
  split at h
  · assumption
  · split at h
    · cases h
    · split at h <;> cases h

theorem parseCC_ccs {r r' : Region} {t : Text} {ps : List Nat} {g : Guard} {b : Bool} (hg : guardOf t = some g)
    (h : parseCC r t ps g = some (r', b)) :
    ∀ c ∈ r'.ccs, c ∈ r.ccs ∨ (ps.getLast? = some c ∧ (c < 512 ∨ (c = 512 ∧ t ∈ looseNames))) := by
  unfold parseCC at h
  split at h
  · cases h
  · rename_i cc hcc
    have key : ∀ c ∈ r.ccs ++ [cc], (cc < 512 ∨ (cc = 512 ∧ t ∈ looseNames)) →
        c ∈ r.ccs ∨ (ps.getLast? = some c ∧ (c < 512 ∨ (c = 512 ∧ t ∈ looseNames))) := by
      intro c hc hh
      rcases List.mem_append.mp hc with hc | hc
      · exact Or.inl hc
      · rw [List.mem_singleton.mp hc]; exact Or.inr ⟨hcc, hh⟩
    split at h
    · cases h; intro c hc; exact Or.inl hc
    · cases g <;> simp only at h
      · split at h
        · cases h; intro c hc; exact Or.inl hc
        · rename_i hle
          cases h
          intro c hc
          refine key c hc ?_
          have := guard_loose hg
          rcases Nat.lt_or_ge cc 512 with h1 | h1
          · exact Or.inl h1
          · exact Or.inr ⟨by omega, this⟩
      · split at h
        · cases h; intro c hc; exact Or.inl hc
        · rename_i hle; cases h; intro c hc; exact key c hc (Or.inl (by omega))
      · split at h
        · cases h; intro c hc; exact Or.inl hc
        · rename_i hle; cases h; intro c hc; exact key c hc (Or.inl (by omega))

/-- What one opcode stores. -/
theorem parse_ccs {other : Op → Bool} {r r' : Region} {o : Op} {b : Bool} (h : parseOpcode other r o = some (r', b)) :
    ∀ c ∈ r'.ccs, c ∈ r.ccs ∨ ((seen o.name).2.getLast? = some c ∧ (c < 512 ∨ (c = 512 ∧ (seen o.name).1 ∈ looseNames))) := by
  unfold parseOpcode at h
  dsimp only at h
  generalize (seen o.name).1 = t at *
  generalize (seen o.name).2 = ps at *
  split at h
  · simp only [Option.map_eq_some_iff, Prod.mk.injEq] at h
    obtain ⟨x, hx, rfl, _⟩ := h
    rw [parseKind_ccs hx]
    intro c hc; exact Or.inl hc
  · split at h
    · unfold parseLfo at h
      split at h
      · cases h
      · split at h
        · cases h; intro c hc; exact Or.inl hc
        · dsimp only at h
          split at h
          · rename_i hg; exact fun c hc => parseCC_ccs hg h c hc
          · cases h; intro c hc; exact Or.inl hc
    · split at h
      · unfold parseEnvelope at h
        split at h
        · cases h
        · split at h
          · cases h; intro c hc; exact Or.inl hc
          · dsimp only at h
            split at h
            · split at h
              · cases h
              · split at h
                · cases h; intro c hc; exact Or.inl hc
                · cases h; intro c hc; exact Or.inl hc
            · split at h
              · cases h; intro c hc; exact Or.inl hc
              · split at h
                · rename_i hg; exact fun c hc => parseCC_ccs hg h c hc
                · cases h; intro c hc; exact Or.inl hc
      · split at h
        · rename_i hg; exact fun c hc => parseCC_ccs hg h c hc
        · cases h; intro c hc; exact Or.inl hc

/-- `collectUsedCCsFromRegion` (Synth.cpp:2219-2276): the bit of each controller used is set in a table of 512 bits. -/
def collectUsed (ccs : List Nat) : Option (List (BitVec 8)) := ccs.foldlM BitArray.set (BitArray.init 512)

/-- C48: whatever the file, the controllers stored in regions are inside the table of 512 values, except 512 when one of the
seven opcodes of `looseNames` has this number; and the controllers given default values are inside the table.
Missing: these seven opcodes (`controller_512_violated`); `set_cc512` (`set_cc_512_violated`). -/
theorem controller_inside_partial (other : Op → Bool) (file : List Block) (s : State Region)
    (h : load (sfz other) file = some s) :
    (∀ l ∈ s.layers, ∀ c ∈ l.1.ccs, c < 512 ∨
      (c = 512 ∧ ∃ o ∈ opcodes file, (seen o.name).1 ∈ looseNames ∧ lastNumber o.name = some 512)) := by
  refine all_regions (sfz other) (fun r => ∀ c ∈ r.ccs, c < 512 ∨
      (c = 512 ∧ ∃ o ∈ opcodes file, (seen o.name).1 ∈ looseNames ∧ lastNumber o.name = some 512)) file s ?_ ?_ ?_ h
  · intro n path c hc; cases hc
  · intro o ho r r' b hr hp c hc
    rcases parse_ccs hp c hc with h1 | ⟨h1, h2 | ⟨h2, h3⟩⟩
    · exact hr c h1
    · exact Or.inl h2
    · refine Or.inr ⟨h2, o, ho, h3, ?_⟩
      unfold lastNumber
      rw [(seen_hash o.name).2, h1, h2]
  · intro d r r' hr hp
    simp only [sfz, offsetAllKeys, Option.bind_eq_bind, Option.bind_eq_some_iff, Option.pure_def, Option.some.injEq] at hp
    obtain ⟨_, _, _, _, _, _, _, _, _, _, _, _, _, _, _, _, rfl⟩ := hp
    exact hr

theorem collectUsed_defined : ∀ (ccs : List Nat) (d : List (BitVec 8)), d.length = 64 → (∀ c ∈ ccs, c < 512) →
    ∃ e, ccs.foldlM BitArray.set d = some e := by
  intro ccs
  induction ccs with
  | nil => intro d _ _; exact ⟨d, rfl⟩
  | cons c ccs ih =>
    intro d hd hc
    have h1 := hc c List.mem_cons_self
    have hx : ∃ x, d[c / 8]? = some x := ⟨d[c / 8]'(by omega), List.getElem?_eq_getElem (by omega)⟩
    obtain ⟨x, hx⟩ := hx
    simp only [List.foldlM_cons, Option.bind_eq_bind]
    have : BitArray.set d c = some (d.set (c / 8) (x ||| BitArray.bit c)) := by
      simp [BitArray.set, BitArray.modify, hx]
    rw [this]
    exact ih _ (by simpa using hd) (fun c' hc' => hc c' (List.mem_cons_of_mem _ hc'))

/-- C48: without these opcodes, collecting the controllers used by a region writes inside of the table. -/
theorem collect_inside_partial (other : Op → Bool) (file : List Block) (s : State Region)
    (h : load (sfz other) file = some s)
    (hn : ∀ o ∈ opcodes file, (seen o.name).1 ∈ looseNames → lastNumber o.name ≠ some 512) :
    ∀ l ∈ s.layers, (collectUsed l.1.ccs).isSome := by
  intro l hl
  obtain ⟨e, he⟩ := collectUsed_defined l.1.ccs (BitArray.init 512) (by simp [BitArray.init, BitArray.byteSize]) (by
    intro c hc
    rcases controller_inside_partial other file s h l hl c hc with h1 | ⟨_, o, ho, h2, h3⟩
    · exact h1
    · exact absurd h3 (hn o ho h2))
  unfold collectUsed
  rw [he]; rfl

theorem upper_defaults {ρ : Type} {s s' : State ρ} {o : Op} (h : handleUpper s o = some s') : s'.defaults = s.defaults := by
  unfold handleUpper at h
  split at h
  · simp only [Option.map_eq_some_iff] at h
    obtain ⟨n, _, rfl⟩ := h
    unfold setLimit; split <;> rfl
  · split at h
    · simp only [Option.bind_eq_bind, Option.bind_eq_some_iff, setCurrentSwitch, Option.pure_def, Option.some.injEq] at h
      obtain ⟨_, _, _, _, _, _, _, _, rfl⟩ := h
      rfl
    · cases h; rfl

theorem uppers_defaults {ρ : Type} : ∀ {os : List Op} {s s' : State ρ}, handleUppers s os = some s' → s'.defaults = s.defaults := by
  intro os
  induction os with
  | nil => intro s s' h; cases h; rfl
  | cons o os ih =>
    intro s s' h
    simp only [handleUppers, List.foldlM_cons, Option.bind_eq_bind, Option.bind_eq_some_iff] at h
    obtain ⟨t, h1, h2⟩ := h
    exact (ih h2).trans (upper_defaults h1)

theorem group1_defaults {ρ : Type} {x y : State ρ × Option Int × Option Nat} {o : Op} (h : handleGroup1 x o = some y) :
    y.1.defaults = x.1.defaults := by
  unfold handleGroup1 at h
  split at h
  · simp only [Option.map_eq_some_iff] at h; obtain ⟨n, _, rfl⟩ := h; rfl
  · split at h
    · simp only [Option.map_eq_some_iff] at h; obtain ⟨n, _, rfl⟩ := h; rfl
    · split at h
      · simp only [Option.bind_eq_bind, Option.bind_eq_some_iff, Option.pure_def, Option.some.injEq, setCurrentSwitch] at h
        obtain ⟨_, _, _, ⟨_, _, _, _, _, _, rfl⟩, rfl⟩ := h
        rfl
      · cases h; rfl

theorem groups_defaults {ρ : Type} {s s' : State ρ} {a b : List Op} (h : handleGroups s a b = some s') : s'.defaults = s.defaults := by
  unfold handleGroups at h
  simp only [Option.bind_eq_bind, Option.bind_eq_some_iff, Option.pure_def, Option.some.injEq] at h
  obtain ⟨x, h1, rfl⟩ := h
  have h2 : ∀ (os : List Op) (x y : State ρ × Option Int × Option Nat), os.foldlM handleGroup1 x = some y →
      y.1.defaults = x.1.defaults := by
    intro os
    induction os with
    | nil => intro x y h; cases h; rfl
    | cons o os ih =>
      intro x y h
      simp only [List.foldlM_cons, Option.bind_eq_bind, Option.bind_eq_some_iff] at h
      obtain ⟨t, h1, h2⟩ := h
      exact (ih _ _ h2).trans (group1_defaults h1)
  rw [← h2 _ _ _ h1]
  cases x.2.1 <;> cases x.2.2 <;> simp only [applyGroup]
  · unfold setLimit; split <;> rfl
  · rfl
  · rfl

theorem control_defaults {ρ : Type} {n : Nat} : ∀ {os : List Op} {s s' : State ρ}, handleControl s os = some s' →
    (∀ c ∈ s.defaults, c < n) → n = 512 → ∀ c ∈ s'.defaults, c < n := by
  intro os
  induction os with
  | nil => intro s s' h hs _; cases h; exact hs
  | cons o os ih =>
    intro s s' h hs hn
    simp only [handleControl, List.foldlM_cons, Option.bind_eq_bind, Option.bind_eq_some_iff] at h
    obtain ⟨t, h1, h2⟩ := h
    refine ih h2 ?_ hn
    unfold handleControl1 at h1
    split at h1
    · cases h1; exact hs
    · split at h1
      · simp only [Option.map_eq_some_iff] at h1; obtain ⟨_, _, rfl⟩ := h1; exact hs
      · split at h1
        · simp only [Option.map_eq_some_iff] at h1; obtain ⟨_, _, rfl⟩ := h1; exact hs
        · split at h1
          · unfold setCC at h1
            split at h1
            · cases h1
            · split at h1
              · split at h1
                · cases h1
                  intro c hc
                  rcases List.mem_append.mp hc with hc | hc
                  · exact hs c hc
                  · rw [List.mem_singleton.mp hc]; omega
                · cases h1
              · cases h1; exact hs
          · cases h1; exact hs

/-- C48: a file read without fault gives default values to controllers of the table only. -/
theorem defaults_inside {ρ : Type} (L : Lang ρ) (file : List Block) (s : State ρ) (h : load L file = some s) :
    ∀ c ∈ s.defaults, c < 512 := by
  induction file using List.reverseRecOn generalizing s with
  | nil => cases h; intro l hl; cases hl
  | append_singleton file b ih =>
    obtain ⟨t, h1, h2⟩ := load_snoc h
    have ih := ih t h1
    obtain ⟨hd, members⟩ := b
    unfold onBlock at h2
    cases hd <;> simp only at h2
    · rw [uppers_defaults h2]; exact ih
    · exact control_defaults h2 ih rfl
    · rw [uppers_defaults h2]; exact ih
    · rw [groups_defaults h2]; exact ih
    · obtain ⟨x, r, hx, ht, hl, _, _, _, _, _, _, _, _, _, hd, _⟩ := buildRegion_spec h2
      rw [hd]; exact ih
    · cases h2; exact ih

/-- C48 fails: controller 512 is stored by each of the seven opcodes, and collecting the controllers of the region then
writes outside of the table. -/
theorem controller_512_violated :
    ["delay_oncc512", "offset_oncc512", "end_oncc512", "loop_start_oncc512", "loop_end_oncc512", "lfo1_delay_oncc512",
      "lfo1_fade_oncc512"].map (fun n => (load (sfz (fun _ => true)) [⟨.region, [op n "1"]⟩]).map
        (fun s => s.layers.map (fun l => (l.1.ccs, (collectUsed l.1.ccs).isSome)))) =
    List.replicate 7 (some [([512], false)]) := by decide +kernel

/-- ... as does a default value for controller 512; 513 is refused. -/
theorem set_cc_512_violated :
    (load (sfz (fun _ => true)) [⟨.control, [op "set_cc512" "1"]⟩]).isNone = true ∧
    (load (sfz (fun _ => true)) [⟨.control, [op "set_hdcc512" "1"]⟩]).isNone = true ∧
    (load (sfz (fun _ => true)) [⟨.control, [op "set_cc511" "1", op "set_cc513" "1"]⟩]).map State.defaults = some [511] := by
  decide +kernel

/-- Opcodes with a number for an LFO or an envelope: the number may be lost (more than 32 bits), and the first of no
parameters is read. -/
theorem huge_lfo_number_violated :
    (load (sfz (fun _ => true)) [⟨.region, [op "lfo4294967296_freq" "1"]⟩]).isNone = true ∧
    (load (sfz (fun _ => true)) [⟨.region, [op "eg4294967296_sustain" "1"]⟩]).isNone = true := by
  decide +kernel

example : (load (sfz (fun _ => true)) [⟨.global, [op "delay_oncc511" "1", op "locc1000" "3"]⟩,
    ⟨.region, [op "lfo2_delay_oncc12" "1", op "lfo2_pitch_oncc5" "100", op "lfo2_pitch_oncc512" "100"]⟩]).map
      (fun s => s.layers.map (fun l => l.1.ccs)) = some [[511, 12, 5]] := by decide +kernel

end Verif.Loader
