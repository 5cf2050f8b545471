import Verif.Loader.Transpose

/-!
When a region waits for a key-switch (`Region::usesKeySwitches`, `Region::usesPreviousKeySwitches`, set in
`Region::parseOpcode`, Region.cpp:284-327, and read in `Layer::initializeActivations`, Layer.cpp:35-36).
-/
namespace Verif.Loader
open Verif.Opcode Verif.Range

/-- The region has a condition on a key-switch that has to be met before it plays. -/
def Conditional (r : Region) : Prop := r.swLast.isSome ∨ r.swLastRange.isSome ∨ r.swDown.isSome

/-- The members about key-switches are the same. -/
def SameSwitches (r r' : Region) : Prop :=
  r'.swLast = r.swLast ∧ r'.swLastRange = r.swLastRange ∧ r'.swDown = r.swDown ∧ r'.swPrevious = r.swPrevious ∧
  r'.usesSwitches = r.usesSwitches ∧ r'.usesPrevious = r.usesPrevious

theorem parseCC_switches {r r' : Region} {t : Text} {ps : List Nat} {g : Guard} {b : Bool}
    (h : parseCC r t ps g = some (r', b)) : SameSwitches r r' := by
  unfold parseCC at h
  split at h
  · cases h
  · split at h
    · cases h; exact ⟨rfl, rfl, rfl, rfl, rfl, rfl⟩
    · cases g <;> simp only at h <;> split at h <;> cases h <;> exact ⟨rfl, rfl, rfl, rfl, rfl, rfl⟩

theorem parse_switches {other : Op → Bool} {r r' : Region} {o : Op} {b : Bool} (h : parseOpcode other r o = some (r', b)) :
    (∃ k, kinds.lookup (seen o.name).1 = some k ∧ parseKind r o.value k = some r') ∨ SameSwitches r r' := by
  unfold parseOpcode at h
  dsimp only at h
  generalize (seen o.name).1 = t at *
  generalize (seen o.name).2 = ps at *
  split at h
  · rename_i k hk
    simp only [Option.map_eq_some_iff, Prod.mk.injEq] at h
    obtain ⟨x, hx, rfl, _⟩ := h
    exact Or.inl ⟨k, hk, hx⟩
  · right
    split at h
    · unfold parseLfo at h
      split at h
      · cases h
      · split at h
        · cases h; exact ⟨rfl, rfl, rfl, rfl, rfl, rfl⟩
        · dsimp only at h
          split at h
          · have := parseCC_switches h; exact ⟨this.1, this.2⟩
          · cases h; exact ⟨rfl, rfl, rfl, rfl, rfl, rfl⟩
    · split at h
      · unfold parseEnvelope at h
        split at h
        · cases h
        · split at h
          · cases h; exact ⟨rfl, rfl, rfl, rfl, rfl, rfl⟩
          · dsimp only at h
            split at h
            · split at h
              · cases h
              · split at h <;> cases h <;> exact ⟨rfl, rfl, rfl, rfl, rfl, rfl⟩
            · split at h
              · cases h; exact ⟨rfl, rfl, rfl, rfl, rfl, rfl⟩
              · split at h
                · have := parseCC_switches h; exact ⟨this.1, this.2⟩
                · cases h; exact ⟨rfl, rfl, rfl, rfl, rfl, rfl⟩
      · split at h
        · exact parseCC_switches h
        · cases h; exact ⟨rfl, rfl, rfl, rfl, rfl, rfl⟩

/-- A value that `sw_last` and `sw_down` understand. -/
def ReadsKey (v : Text) : Prop := ∃ k, readKey? keySpec v = some (some k)

theorem parseKind_previous {r r' : Region} {v : Text} {k : Kind} (h : parseKind r v k = some r')
    (hr : r.usesPrevious = r.swPrevious.isSome) : r'.usesPrevious = r'.swPrevious.isSome := by
  cases k <;> simp only [parseKind, setLast] at h
  case swLast =>
    split at h
    · cases h; exact hr
    · simp only [Option.map_eq_some_iff] at h; obtain ⟨x, _, rfl⟩ := h; exact hr
  case keycenter =>
    split at h
    · cases h; exact hr
    · simp only [Option.map_eq_some_iff] at h; obtain ⟨x, _, rfl⟩ := h; exact hr
  case swPrevious => simp only [Option.map_eq_some_iff] at h; obtain ⟨x, _, rfl⟩ := h; rfl
  all_goals simp only [Option.map_eq_some_iff] at h; obtain ⟨x, _, rfl⟩ := h; exact hr

theorem parseKind_uses {r r' : Region} {v : Text} {k : Kind} (h : parseKind r v k = some r')
    (hr : r.usesSwitches = true → Conditional r) : r'.usesSwitches = true → Conditional r' := by
  cases k <;> simp only [parseKind, setLast] at h
  case swLast =>
    split at h
    · cases h; exact hr
    · simp only [Option.map_eq_some_iff] at h; obtain ⟨x, _, rfl⟩ := h; exact fun h => Or.inl h
  case swLolast => simp only [Option.map_eq_some_iff] at h; obtain ⟨x, _, rfl⟩ := h; exact fun _ => Or.inr (Or.inl rfl)
  case swHilast => simp only [Option.map_eq_some_iff] at h; obtain ⟨x, _, rfl⟩ := h; exact fun _ => Or.inr (Or.inl rfl)
  case swDown => simp only [Option.map_eq_some_iff] at h; obtain ⟨x, _, rfl⟩ := h; exact fun h => Or.inr (Or.inr h)
  case keycenter =>
    split at h
    · cases h; exact hr
    · simp only [Option.map_eq_some_iff] at h; obtain ⟨x, _, rfl⟩ := h; exact hr
  all_goals simp only [Option.map_eq_some_iff] at h; obtain ⟨x, _, rfl⟩ := h; exact hr

theorem parseKind_waits {r r' : Region} {v : Text} {k : Kind} (h : parseKind r v k = some r')
    (hv : k = .swLast ∨ k = .swDown → ReadsKey v) (hr : Conditional r → r.usesSwitches = true) :
    Conditional r' → r'.usesSwitches = true := by
  cases k <;> simp only [parseKind, setLast] at h
  case swLast =>
    split at h
    · cases h; exact hr
    · obtain ⟨y, hy⟩ := hv (Or.inl rfl)
      rw [hy] at h
      cases h; exact fun _ => rfl
  case swLolast => simp only [Option.map_eq_some_iff] at h; obtain ⟨x, _, rfl⟩ := h; exact fun _ => rfl
  case swHilast => simp only [Option.map_eq_some_iff] at h; obtain ⟨x, _, rfl⟩ := h; exact fun _ => rfl
  case swDown =>
    obtain ⟨y, hy⟩ := hv (Or.inr rfl)
    rw [hy] at h
    cases h; exact fun _ => rfl
  case keycenter =>
    split at h
    · cases h; exact hr
    · simp only [Option.map_eq_some_iff] at h; obtain ⟨x, _, rfl⟩ := h; exact hr
  all_goals simp only [Option.map_eq_some_iff] at h; obtain ⟨x, _, rfl⟩ := h; exact hr

theorem offset_switches {d : Int} {r r' : Region} (h : offsetAllKeys d r = some r') :
    r'.usesSwitches = r.usesSwitches ∧ r'.usesPrevious = r.usesPrevious ∧ r'.swPrevious.isSome = r.swPrevious.isSome ∧
      (Conditional r' ↔ Conditional r) := by
  rw [region_moved h]
  refine ⟨rfl, rfl, by simp, ?_⟩
  simp [Conditional]

/-- **C82, previous note.** Whatever the file, a region waits for a previous note exactly when it has a `sw_previous` key. -/
theorem waits_previous (other : Op → Bool) (file : List Block) (s : State Region) (h : load (sfz other) file = some s) :
    ∀ l ∈ s.layers, l.1.usesPrevious = l.1.swPrevious.isSome := by
  refine all_regions (sfz other) (fun r => r.usesPrevious = r.swPrevious.isSome) file s (fun _ _ => rfl) ?_ ?_ h
  · intro o _ r r' b hr hp
    rcases parse_switches (b := b) hp with ⟨k, _, h2⟩ | hs
    · exact parseKind_previous h2 hr
    · show r'.usesPrevious = r'.swPrevious.isSome
      rw [hs.2.2.2.1, hs.2.2.2.2.2]; exact hr
  · intro d r r' hr hp
    obtain ⟨_, h2, h3, _⟩ := offset_switches hp
    show r'.usesPrevious = r'.swPrevious.isSome
    rw [h2, h3]; exact hr

/-- **C82, no idle wait.** Whatever the file, a region that waits for a key-switch has a condition that a key can meet. -/
theorem waits_for_something (other : Op → Bool) (file : List Block) (s : State Region) (h : load (sfz other) file = some s) :
    ∀ l ∈ s.layers, l.1.usesSwitches = true → Conditional l.1 := by
  refine all_regions (sfz other) (fun r => r.usesSwitches = true → Conditional r) file s (fun _ _ h => by simp [sfz] at h) ?_ ?_ h
  · intro o _ r r' b hr hp
    rcases parse_switches (b := b) hp with ⟨k, _, h2⟩ | hs
    · exact parseKind_uses h2 hr
    · intro hu
      unfold Conditional
      rw [hs.1, hs.2.1, hs.2.2.1]
      exact hr (by rw [← hs.2.2.2.2.1]; exact hu)
  · intro d r r' hr hp hu
    obtain ⟨h1, _, _, h4⟩ := offset_switches hp
    exact h4.mpr (hr (by rw [← h1]; exact hu))

theorem mem_of_lookup (l : List (Text × Kind)) (t : Text) (k : Kind) (h : l.lookup t = some k) : (t, k) ∈ l := by
  induction l with
  | nil => simp at h
  | cons a l ih =>
    rw [List.lookup_cons] at h
    split at h
    · rename_i he
      simp only [beq_iff_eq] at he
      cases h; subst he; simp
    · exact List.mem_cons_of_mem _ (ih h)

/-- **C82, key-switches.** A region with a condition on a key-switch (`sw_last`, `sw_lolast`, `sw_hilast`, `sw_down`) waits for it:
it is switched off until the condition is met.  `_partial`: when every `sw_last` and `sw_down` of the file is a key. -/
theorem waits_partial (other : Op → Bool) (file : List Block) (s : State Region) (h : load (sfz other) file = some s)
    (hos : ∀ o ∈ opcodes file, (seen o.name).1 = "sw_last".toList ∨ (seen o.name).1 = "sw_down".toList → ReadsKey o.value) :
    ∀ l ∈ s.layers, Conditional l.1 → l.1.usesSwitches = true := by
  refine all_regions (sfz other) (fun r => Conditional r → r.usesSwitches = true) file s
    (fun _ _ h => by simp [sfz, Conditional] at h) ?_ ?_ h
  · intro o ho r r' b hr hp
    rcases parse_switches (b := b) hp with ⟨k, h1, h2⟩ | hs
    · refine parseKind_waits h2 (fun hk => hos o ho ?_) hr
      have hm := mem_of_lookup kinds _ _ h1
      rcases hk with rfl | rfl
      · left; simp [kinds] at hm; exact hm
      · right; simp [kinds] at hm; exact hm
    · intro hc
      show r'.usesSwitches = true
      rw [hs.2.2.2.2.1]
      apply hr
      unfold Conditional at hc ⊢
      rw [hs.1, hs.2.1, hs.2.2.1] at hc
      exact hc
  · intro d r r' hr hp hc
    obtain ⟨h1, _, _, h4⟩ := offset_switches hp
    show r'.usesSwitches = true
    rw [h1]; exact hr (h4.mp hc)

example : (load (sfz (fun _ => true)) [⟨.global, [op "sw_last" "36"]⟩, ⟨.region, [op "sw_down" "c2"]⟩, ⟨.region, []⟩,
    ⟨.region, [op "sw_previous" "60", op "sw_lolast" "24"]⟩]).map
      (fun s => s.layers.map (fun l => (l.1.usesSwitches, l.1.usesPrevious, switchKeys l.1))) =
    some [(true, false, [36, 36]), (true, false, [36]), (true, true, [24])] := by decide +kernel

example : ReadsKey "c2".toList := ⟨36, by decide +kernel⟩

/-- **C82 fails** when a `sw_down` that is not a key follows a `sw_last`: the region needs key 36 and does not wait for it. -/
theorem waits_violated :
    (load (sfz (fun _ => true)) [⟨.region, [op "sw_last" "36", op "sw_down" "-1"]⟩]).map
      (fun s => s.layers.map (fun l => (l.1.swLast, l.1.swDown, l.1.usesSwitches))) = some [(some 36, none, false)] := by
  decide +kernel

end Verif.Loader
