import Verif.Loader.Keys

/-!
C52: transposed or not, the keys of a file are on the keyboard; C67: which files are read without fault.
-/
namespace Verif.Loader
open Verif.Opcode Verif.Range

/-! ### Keys read from opcodes -/

theorem readKey_le {spec : Spec Int} {v : Text} {k : Nat} (hlo : spec.lo = 0) (hhi : spec.hi = 127) (hd : 0 ≤ spec.dflt ∧ spec.dflt ≤ 127)
    (hp : spec.permissiveUpper = false) (hq : spec.permissiveLower = false) (h : readKey spec v = some k) : k ≤ 127 := by
  unfold readKey at h
  simp only [Option.map_eq_some_iff] at h
  obtain ⟨x, hx, rfl⟩ := h
  have := int_value_allowed 0 255 spec v x (by omega) (by omega)
    ⟨by omega, by omega, fun _ => by omega, fun _ => by omega⟩ hx
  have := this.2.2.1 (Or.inl hp)
  omega

theorem readKey?_le {spec : Spec Int} {v : Text} {k : Nat} (hlo : spec.lo = 0) (hhi : spec.hi = 127) (hd : 0 ≤ spec.dflt ∧ spec.dflt ≤ 127)
    (hp : spec.permissiveUpper = false) (hq : spec.permissiveLower = false) (h : readKey? spec v = some (some k)) : k ≤ 127 := by
  apply readKey_le hlo hhi hd hp hq (v := v)
  unfold readKey? at h
  unfold readKey readIntOr
  simp only [Option.map_eq_some_iff] at h ⊢
  obtain ⟨x, hx, y, rfl, rfl⟩ := h
  exact ⟨y, ⟨some y, hx, rfl⟩, rfl⟩

/-- The keys of a range are keys. -/
def RangeOk (x : R Nat) : Prop := x.start ≤ 127 ∧ x.stop ≤ 127

/-- All the keys of a region are on the keyboard. -/
structure KeysOk (r : Region) : Prop where
  keys : RangeOk r.keys
  keycenter : r.keycenter ≤ 127
  swLast : ∀ k, r.swLast = some k → k ≤ 127
  swLastRange : ∀ x, r.swLastRange = some x → RangeOk x
  swDown : ∀ k, r.swDown = some k → k ≤ 127
  swUp : ∀ k, r.swUp = some k → k ≤ 127
  swPrevious : ∀ k, r.swPrevious = some k → k ≤ 127
  swDefault : ∀ k, r.swDefault = some k → k ≤ 127
  xfin : RangeOk r.xfin
  xfout : RangeOk r.xfout

theorem range_set {x : R Nat} {k : Nat} (h : RangeOk x) (hk : k ≤ 127) : RangeOk (setStart false x k) ∧ RangeOk (setEnd false x k) := by
  simp only [setStart, setEnd, Bool.false_and, Bool.false_eq_true, if_false]
  exact ⟨⟨hk, h.2⟩, ⟨h.1, hk⟩⟩

theorem parseKind_keys {r r' : Region} {v : Text} {k : Kind} (hr : KeysOk r) (h : parseKind r v k = some r') : KeysOk r' := by
  have rk : ∀ {k}, readKey keySpec v = some k → k ≤ 127 := fun h => readKey_le rfl rfl (by decide) rfl rfl h
  have rl : ∀ {k}, readKey loKeySpec v = some k → k ≤ 127 := fun h => readKey_le rfl rfl (by decide) rfl rfl h
  have rh : ∀ {k}, readKey hiKeySpec v = some k → k ≤ 127 := fun h => readKey_le rfl rfl (by decide) rfl rfl h
  have ok : ∀ {k}, readKey? keySpec v = some k → ∀ x, k = some x → x ≤ 127 :=
    fun h x hx => readKey?_le rfl rfl (by decide) rfl rfl (hx ▸ h)
  have oh : ∀ {k}, readKey? hiKeySpec v = some k → ∀ x, k = some x → x ≤ 127 :=
    fun h x hx => readKey?_le rfl rfl (by decide) rfl rfl (hx ▸ h)
  obtain ⟨a1, a2, a3, a4, a5, a6, a7, a8, a9, a10⟩ := hr
  cases k <;> simp only [parseKind] at h
  case lokey =>
    simp only [Option.map_eq_some_iff] at h; obtain ⟨x, hx, rfl⟩ := h
    exact ⟨(range_set a1 (rl hx)).1, a2, a3, a4, a5, a6, a7, a8, a9, a10⟩
  case hikey =>
    simp only [Option.map_eq_some_iff] at h; obtain ⟨x, hx, rfl⟩ := h
    refine ⟨(range_set a1 ?_).2, a2, a3, a4, a5, a6, a7, a8, a9, a10⟩
    cases x with
    | none => simp
    | some y => exact oh hx y rfl
  case key =>
    simp only [Option.map_eq_some_iff] at h; obtain ⟨x, hx, rfl⟩ := h
    have : x.getD 60 ≤ 127 := by
      cases x with
      | none => simp
      | some y => exact ok hx y rfl
    exact ⟨(range_set (range_set a1 this).1 this).2, this, a3, a4, a5, a6, a7, a8, a9, a10⟩
  case swLast =>
    split at h
    · cases h; exact ⟨a1, a2, a3, a4, a5, a6, a7, a8, a9, a10⟩
    · simp only [Option.map_eq_some_iff] at h; obtain ⟨x, hx, rfl⟩ := h
      exact ⟨a1, a2, ok hx, a4, a5, a6, a7, a8, a9, a10⟩
  case swLolast =>
    simp only [Option.map_eq_some_iff] at h; obtain ⟨x, hx, rfl⟩ := h
    refine ⟨a1, a2, by simp [setLast], ?_, a5, a6, a7, a8, a9, a10⟩
    intro y hy
    simp only [setLast, Option.some.injEq] at hy
    subst hy
    split
    · exact ⟨rk hx, rk hx⟩
    · rename_i z hz; exact (range_set (a4 z hz) (rk hx)).1
  case swHilast =>
    simp only [Option.map_eq_some_iff] at h; obtain ⟨x, hx, rfl⟩ := h
    refine ⟨a1, a2, by simp [setLast], ?_, a5, a6, a7, a8, a9, a10⟩
    intro y hy
    simp only [setLast, Option.some.injEq] at hy
    subst hy
    split
    · exact ⟨rk hx, rk hx⟩
    · rename_i z hz; exact (range_set (a4 z hz) (rk hx)).2
  case swDown =>
    simp only [Option.map_eq_some_iff] at h; obtain ⟨x, hx, rfl⟩ := h
    exact ⟨a1, a2, a3, a4, ok hx, a6, a7, a8, a9, a10⟩
  case swUp =>
    simp only [Option.map_eq_some_iff] at h; obtain ⟨x, hx, rfl⟩ := h
    exact ⟨a1, a2, a3, a4, a5, ok hx, a7, a8, a9, a10⟩
  case swPrevious =>
    simp only [Option.map_eq_some_iff] at h; obtain ⟨x, hx, rfl⟩ := h
    exact ⟨a1, a2, a3, a4, a5, a6, ok hx, a8, a9, a10⟩
  case swDefault =>
    simp only [Option.map_eq_some_iff] at h; obtain ⟨x, hx, rfl⟩ := h
    exact ⟨a1, a2, a3, a4, a5, a6, a7, (fun k hk => by cases hk; exact rk hx), a9, a10⟩
  case xfinLokey =>
    simp only [Option.map_eq_some_iff] at h; obtain ⟨x, hx, rfl⟩ := h
    exact ⟨a1, a2, a3, a4, a5, a6, a7, a8, (range_set a9 (rl hx)).1, a10⟩
  case xfinHikey =>
    simp only [Option.map_eq_some_iff] at h; obtain ⟨x, hx, rfl⟩ := h
    exact ⟨a1, a2, a3, a4, a5, a6, a7, a8, (range_set a9 (rl hx)).2, a10⟩
  case xfoutLokey =>
    simp only [Option.map_eq_some_iff] at h; obtain ⟨x, hx, rfl⟩ := h
    exact ⟨a1, a2, a3, a4, a5, a6, a7, a8, a9, (range_set a10 (rh hx)).1⟩
  case xfoutHikey =>
    simp only [Option.map_eq_some_iff] at h; obtain ⟨x, hx, rfl⟩ := h
    exact ⟨a1, a2, a3, a4, a5, a6, a7, a8, a9, (range_set a10 (rh hx)).2⟩
  case keycenter =>
    split at h
    · cases h; exact ⟨a1, a2, a3, a4, a5, a6, a7, a8, a9, a10⟩
    · simp only [Option.map_eq_some_iff] at h; obtain ⟨x, hx, rfl⟩ := h
      exact ⟨a1, rk hx, a3, a4, a5, a6, a7, a8, a9, a10⟩
  case group =>
    simp only [Option.map_eq_some_iff] at h; obtain ⟨x, hx, rfl⟩ := h
    exact ⟨a1, a2, a3, a4, a5, a6, a7, a8, a9, a10⟩
  case polyphony =>
    simp only [Option.map_eq_some_iff] at h; obtain ⟨x, hx, rfl⟩ := h
    exact ⟨a1, a2, a3, a4, a5, a6, a7, a8, a9, a10⟩

/-- The members about keys are the same. -/
def SameKeys (r r' : Region) : Prop :=
  r'.keys = r.keys ∧ r'.keycenter = r.keycenter ∧ r'.swLast = r.swLast ∧ r'.swLastRange = r.swLastRange ∧
  r'.swDown = r.swDown ∧ r'.swUp = r.swUp ∧ r'.swPrevious = r.swPrevious ∧ r'.swDefault = r.swDefault ∧
  r'.xfin = r.xfin ∧ r'.xfout = r.xfout

theorem SameKeys.refl (r : Region) : SameKeys r r := ⟨rfl, rfl, rfl, rfl, rfl, rfl, rfl, rfl, rfl, rfl⟩

theorem SameKeys.ok {r r' : Region} (h : SameKeys r r') (hr : KeysOk r) : KeysOk r' := by
  obtain ⟨h1, h2, h3, h4, h5, h6, h7, h8, h9, h10⟩ := h
  obtain ⟨a1, a2, a3, a4, a5, a6, a7, a8, a9, a10⟩ := hr
  exact ⟨h1 ▸ a1, h2 ▸ a2, h3 ▸ a3, h4 ▸ a4, h5 ▸ a5, h6 ▸ a6, h7 ▸ a7, h8 ▸ a8, h9 ▸ a9, h10 ▸ a10⟩

theorem parseCC_keys {r r' : Region} {t : Text} {ps : List Nat} {g : Guard} {b : Bool} (h : parseCC r t ps g = some (r', b)) :
    SameKeys r r' := by
  unfold parseCC at h
  split at h
  · cases h
  · split at h
    · cases h; exact SameKeys.refl _
    · cases g <;> simp only at h <;> split at h <;> cases h <;> exact ⟨rfl, rfl, rfl, rfl, rfl, rfl, rfl, rfl, rfl, rfl⟩

theorem parse_keys {other : Op → Bool} {r r' : Region} {o : Op} {b : Bool} (hr : KeysOk r)
    (h : parseOpcode other r o = some (r', b)) : KeysOk r' := by
  unfold parseOpcode at h
  dsimp only at h
  generalize (seen o.name).1 = t at *
  generalize (seen o.name).2 = ps at *
  have triv : ∀ r1 : Region, SameKeys r r1 → KeysOk r1 := fun r1 h1 => h1.ok hr
  split at h
  · simp only [Option.map_eq_some_iff, Prod.mk.injEq] at h
    obtain ⟨x, hx, rfl, _⟩ := h
    exact parseKind_keys hr hx
  · apply triv
    split at h
    · unfold parseLfo at h
      split at h
      · cases h
      · split at h
        · cases h; exact SameKeys.refl _
        · dsimp only at h
          split at h
          · have := parseCC_keys h; exact ⟨this.1, this.2⟩
          · cases h; exact ⟨rfl, rfl, rfl, rfl, rfl, rfl, rfl, rfl, rfl, rfl⟩
    · split at h
      · unfold parseEnvelope at h
        split at h
        · cases h
        · split at h
          · cases h; exact SameKeys.refl _
          · dsimp only at h
            split at h
            · split at h
              · cases h
              · split at h <;> cases h <;> exact ⟨rfl, rfl, rfl, rfl, rfl, rfl, rfl, rfl, rfl, rfl⟩
            · split at h
              · cases h; exact ⟨rfl, rfl, rfl, rfl, rfl, rfl, rfl, rfl, rfl, rfl⟩
              · split at h
                · have := parseCC_keys h; exact ⟨this.1, this.2⟩
                · cases h; exact ⟨rfl, rfl, rfl, rfl, rfl, rfl, rfl, rfl, rfl, rfl⟩
      · split at h
        · exact parseCC_keys h
        · cases h; exact SameKeys.refl _

/-! ### Transposition -/

/-- A key moved by `d` semitones, kept on the keyboard. -/
def moved (k : Nat) (d : Int) : Nat := (max 0 (min 127 ((k : Int) + d))).toNat

theorem moved_le (k : Nat) (d : Int) : moved k d ≤ 127 := by unfold moved; omega

/-- C52: each key is moved by the offset, to the nearest end of the keyboard when it leaves it; for every offset that the
addition can express. -/
theorem key_moved {k k' : Nat} {d : Int} (h : offsetAndClampKey k d = some k') : k' = moved k d := by
  unfold offsetAndClampKey at h
  simp only [Option.map_eq_some_iff] at h
  obtain ⟨v, hv, h⟩ := h
  rw [(int32_eq hv).1] at h
  unfold moved
  split at h
  · omega
  · split at h <;> omega

theorem key_moved_defined (k : Nat) (d : Int) (hk : k ≤ 127) (hd : -2147483648 ≤ d ∧ d ≤ 2147483520) :
    offsetAndClampKey k d = some (moved k d) := by
  have : int32 ((k : Int) + d) = some ((k : Int) + d) := by
    unfold int32 intRange int32Min int32Max
    rw [if_pos (by constructor <;> omega)]
  have h2 : ∃ k', offsetAndClampKey k d = some k' := by unfold offsetAndClampKey; rw [this]; exact ⟨_, rfl⟩
  obtain ⟨k', h2⟩ := h2
  rw [h2, key_moved h2]

/-- The order of keys is kept: a key inside a range stays inside. -/
theorem moved_mono {a b : Nat} {d : Int} (h : a ≤ b) : moved a d ≤ moved b d := by unfold moved; omega

theorem offsetRange_eq {dflt x y : R Nat} {d : Int} (h : offsetRange dflt x d = some y) :
    y = if x = dflt then x else ⟨moved x.start d, moved x.stop d⟩ := by
  unfold offsetRange at h
  split at h
  · rename_i hx; cases h; rw [if_pos hx]
  · rename_i hx
    simp only [Option.bind_eq_bind, Option.bind_eq_some_iff, Option.pure_def, Option.some.injEq] at h
    obtain ⟨a, ha, b, hb, rfl⟩ := h
    rw [if_neg hx, ← key_moved ha, ← key_moved hb]
    simp [setStart, setEnd]

theorem offsetOpt_eq {k k' : Option Nat} {d : Int} (h : offsetOpt k d = some k') : k' = k.map (moved · d) := by
  unfold offsetOpt at h
  split at h
  · cases h; rfl
  · simp only [Option.map_eq_some_iff] at h
    obtain ⟨x, hx, rfl⟩ := h
    rw [key_moved hx]; rfl

/-- C52: what a transposition does to a region: ranges other than the whole keyboard (and the default crossfades), the pitch
center and the key-switches are moved, each key by itself; everything else stays. In particular the range
`sw_lolast`-`sw_hilast` stays (`switch_range_violated`). -/
theorem region_moved {d : Int} {r r' : Region} (h : offsetAllKeys d r = some r') :
    r' = { r with
      keys := if r.keys = ⟨0, 127⟩ then r.keys else ⟨moved r.keys.start d, moved r.keys.stop d⟩
      keycenter := moved r.keycenter d
      swUp := r.swUp.map (moved · d)
      swLast := r.swLast.map (moved · d)
      swDown := r.swDown.map (moved · d)
      swPrevious := r.swPrevious.map (moved · d)
      xfin := if r.xfin = ⟨0, 0⟩ then r.xfin else ⟨moved r.xfin.start d, moved r.xfin.stop d⟩
      xfout := if r.xfout = ⟨127, 127⟩ then r.xfout else ⟨moved r.xfout.start d, moved r.xfout.stop d⟩ } := by
  simp only [offsetAllKeys, Option.bind_eq_bind, Option.bind_eq_some_iff, Option.pure_def, Option.some.injEq] at h
  obtain ⟨a, ha, b, hb, c, hc, e, he, f, hf, g, hg, i, hi, j, hj, rfl⟩ := h
  rw [← offsetRange_eq ha, ← key_moved hb, ← offsetOpt_eq hc, ← offsetOpt_eq he, ← offsetOpt_eq hf, ← offsetOpt_eq hg,
    ← offsetRange_eq hi, ← offsetRange_eq hj]

theorem offset_keys {d : Int} {r r' : Region} (hr : KeysOk r) (h : offsetAllKeys d r = some r') : KeysOk r' := by
  rw [region_moved h]
  obtain ⟨a1, a2, a3, a4, a5, a6, a7, a8, a9, a10⟩ := hr
  have opt : ∀ (k : Option Nat) (x : Nat), k.map (moved · d) = some x → x ≤ 127 := by
    intro k x hx
    simp only [Option.map_eq_some_iff] at hx
    obtain ⟨y, _, rfl⟩ := hx
    exact moved_le _ _
  refine ⟨?_, moved_le _ _, opt _, a4, opt _, opt _, opt _, a8, ?_, ?_⟩
  · dsimp only; split
    · exact a1
    · exact ⟨moved_le _ _, moved_le _ _⟩
  · dsimp only; split
    · exact a9
    · exact ⟨moved_le _ _, moved_le _ _⟩
  · dsimp only; split
    · exact a10
    · exact ⟨moved_le _ _, moved_le _ _⟩

theorem fresh_keys (n : Nat) (path : Text) : KeysOk { id := n, path := path } := by
  constructor <;> simp [RangeOk]

/-- C52: whatever the file and its offsets, all the key numbers of all its regions are on the keyboard. Missing: the default
key-switch (`default_switch_violated`), offsets so large that the sum overflows (`offset_overflow_violated`). -/
theorem keys_on_keyboard_partial (other : Op → Bool) (file : List Block) (s : State Region) (h : load (sfz other) file = some s) :
    ∀ l ∈ s.layers, KeysOk l.1 := by
  refine all_regions (sfz other) KeysOk file s ?_ ?_ ?_ h
  · intro n path
    exact fresh_keys n path
  · intro o _ r r' b hr hp; exact parse_keys hr hp
  · intro d r r' hr hp; exact offset_keys hr hp

/-- C52: the default key-switch is moved by the offsets when it stays on the keyboard. -/
theorem default_switch_partial {ρ : Type} (s s' : State ρ) (key : Nat) (h : setCurrentSwitch s key = some s')
    (hk : 0 ≤ (key : Int) + 12 * s.octaveOffset + s.noteOffset ∧ (key : Int) + 12 * s.octaveOffset + s.noteOffset ≤ 127) :
    s'.currentSwitch = some (moved key (12 * s.octaveOffset + s.noteOffset)) := by
  unfold setCurrentSwitch at h
  simp only [Option.bind_eq_bind, Option.bind_eq_some_iff, Option.pure_def, Option.some.injEq] at h
  obtain ⟨a, ha, b, hb, c, hc, rfl⟩ := h
  rw [(int32_eq ha).1] at hb
  rw [(int32_eq hb).1] at hc
  rw [(int32_eq hc).1]
  unfold moved
  simp only [Option.some.injEq]
  omega

example : (load (sfz (fun _ => true)) [⟨.control, [op "octave_offset" "-1"]⟩, ⟨.global, [op "sw_default" "40"]⟩]).map
    State.currentSwitch = some (some 28) := by decide +kernel

/-- C52 fails: the default key-switch leaves the keyboard (it is an index into tables of 128 keys at the next key-switch note,
Synth.cpp:1356-1357), while the key-switches themselves are kept on it. -/
theorem default_switch_violated :
    (load (sfz (fun _ => true)) [⟨.control, [op "octave_offset" "1"]⟩, ⟨.region, [op "sw_last" "120", op "sw_default" "120"]⟩]).map
      (fun s => (s.currentSwitch, s.layers.map (fun l => l.1.swLast))) = some (some 132, [some 127]) ∧
    (load (sfz (fun _ => true)) [⟨.control, [op "note_offset" "-7"]⟩, ⟨.global, [op "sw_default" "5"]⟩]).map
      State.currentSwitch = some (some 254) := by decide +kernel

/-- C52 fails: the sum of the offsets overflows. -/
theorem offset_overflow_violated :
    (load (sfz (fun _ => true)) [⟨.control, [op "octave_offset" "200000000"]⟩, ⟨.region, [op "key" "60"]⟩]).isNone = true := by
  decide +kernel

/-- C52: the range of key-switches `sw_lolast`-`sw_hilast` is not transposed, while `sw_last` is. -/
theorem switch_range_violated :
    (load (sfz (fun _ => true)) [⟨.control, [op "note_offset" "12"]⟩, ⟨.region, [op "sw_lolast" "24", op "sw_hilast" "24"]⟩,
      ⟨.region, [op "sw_last" "24"]⟩]).map (fun s => s.layers.map (fun l => switchKeys l.1)) = some [[24], [36]] := by decide +kernel

/-- C52: a region that no key plays (`lokey` above `hikey`) is played by a key once transposed to the end of the keyboard. -/
theorem empty_range_violated :
    (load (sfz (fun _ => true)) [⟨.control, [op "note_offset" "20"]⟩, ⟨.region, [op "lokey" "120", op "hikey" "110"]⟩]).map
      (fun s => s.layers.map (fun l => (l.1.keys.start, l.1.keys.stop))) = some [(127, 127)] := by decide +kernel

example : (load (sfz (fun _ => true)) [⟨.control, [op "note_offset" "20", op "octave_offset" "-3"]⟩,
    ⟨.region, [op "lokey" "10", op "hikey" "c5", op "sw_up" "3"]⟩, ⟨.region, [op "pitch_keycenter" "60"]⟩]).map
      (fun s => s.layers.map (fun l => (l.1.keys.start, l.1.keys.stop, l.1.keycenter, l.1.swUp))) =
    some [(0, 56, 44, some 0), (0, 127, 44, none)] := by decide +kernel

/-! ### C67: files read without fault -/

theorem seen_count : ∀ (k : Nat) (s : Text), s.length ≤ k → ∀ (t : Text) (ps : List Nat), t.count '&' = ps.length →
    (seenFrom s (t, ps)).1.count '&' = (seenFrom s (t, ps)).2.length := by
  intro k
  induction k with
  | zero =>
    intro s hs t ps h
    have : s = [] := List.length_eq_zero_iff.mp (by omega)
    subst this
    unfold seenFrom
    simp [h]
  | succ k ih =>
    intro s hs t ps h
    have hf : ∀ l : Text, (l.filter (fun x => decide (x ≠ '&'))).count '&' = 0 := by
      intro l
      rw [List.count_eq_zero]
      simp
    unfold seenFrom
    dsimp only
    split
    · simp only [List.count_append, hf, Nat.add_zero, h]
    · rename_i d rest hd
      have h1 : (d :: rest).length ≤ s.length := hd ▸ dropWhile_lt
      have hd' : isDigit d = true := by
        have hh := @List.head?_dropWhile_not Char (fun c => !isDigit c) s
        rw [hd] at hh
        simpa using hh
      have h2 : ((d :: rest).dropWhile isDigit).length ≤ rest.length := by
        rw [List.dropWhile_cons_of_pos hd']; exact dropWhile_lt
      simp only [List.length_cons] at h1
      split
      · apply ih _ (by omega)
        simp only [List.count_append, hf, h, List.length_append]; rfl
      · apply ih _ (by omega)
        simp only [List.count_append, hf, h, Nat.add_zero]

/-- As many numbers as marks. -/
theorem seen_numbers (name : Text) : (seen name).1.count '&' = (seen name).2.length :=
  seen_count _ _ (Nat.le_refl _) [] [] rfl

theorem marked_has_number {name : Text} (h : '&' ∈ (seen name).1) : ∃ n, (seen name).2.getLast? = some n := by
  have := seen_numbers name
  have h1 := List.count_pos_iff.mpr h
  cases hp : (seen name).2 with
  | nil => rw [hp] at this; simp at this; omega
  | cons a l => exact ⟨_, List.getLast?_eq_some_getLast (by simp)⟩

theorem guard_marked {t : Text} {g : Guard} (h : guardOf t = some g) : '&' ∈ t := by
  have l1 : ∀ t ∈ looseNames, '&' ∈ t := by decide
  have l2 : ∀ t ∈ strictNames, '&' ∈ t := by decide
  have l3 : ∀ t ∈ suffixes, '&' ∈ t := by decide
  unfold guardOf at h
  split at h
  · exact l1 t ‹_›
  · split at h
    · exact l2 t ‹_›
    · split at h
      · rename_i hs
        simp only [List.any_eq_true, beq_iff_eq] at hs
        obtain ⟨x, hx, y, _, rfl⟩ := hs
        exact List.mem_append_right _ (l3 x hx)
      · cases h

/-- Opcodes whose value may be the name of a note. -/
def noteOpcodes : List Text := [
  "lokey".toList, "hikey".toList, "key".toList, "sw_last".toList, "sw_lolast".toList, "sw_hilast".toList, "sw_down".toList,
  "sw_up".toList, "sw_previous".toList, "sw_default".toList, "xfin_lokey".toList, "xfin_hikey".toList, "xfout_lokey".toList,
  "xfout_hikey".toList, "pitch_keycenter".toList]

/-- What makes reading an opcode undefined: note names without a letter or with huge octaves (C31, `note_name_violated`), huge
offsets, controller 512 in `set_cc`, and LFO or envelope numbers of more than 32 bits. -/
structure Sound (o : Op) : Prop where
  note : (seen o.name).1 ∈ noteOpcodes ∨ o.name = "sw_default".toList → (readNoteValue o.value).isSome
  noteOffset : o.name = "note_offset".toList → ∀ v, readIntOr int32Min int32Max noteOffsetSpec o.value = some v → -100000000 ≤ v ∧ v ≤ 100000000
  octaveOffset : o.name = "octave_offset".toList → ∀ v, readIntOr int32Min int32Max octaveOffsetSpec o.value = some v →
    -100000000 ≤ v ∧ v ≤ 100000000
  setCC : (seen o.name).1 = "set_cc&".toList ∨ (seen o.name).1 = "set_hdcc&".toList → lastNumber o.name ≠ some 512
  number : "lfo&_".toList.isPrefixOf (letterOnlyName (trim o.name)) = true ∨ "eg&_".toList.isPrefixOf (letterOnlyName (trim o.name)) = true →
    (decompose o.name).parameters ≠ []

theorem readKey?_defined {spec : Spec Int} {v : Text} (h : (readNoteValue v).isSome) : ∃ k, readKey? spec v = some k := by
  unfold readKey? readInt
  split
  · exact ⟨_, rfl⟩
  · split
    · split
      · rename_i hn; rw [hn] at h; cases h
      · exact ⟨_, rfl⟩
      · exact ⟨_, rfl⟩
    · exact ⟨_, rfl⟩

theorem readKey_defined {spec : Spec Int} {v : Text} (h : (readNoteValue v).isSome) : ∃ k, readKey spec v = some k := by
  obtain ⟨k, hk⟩ := readKey?_defined (spec := spec) h
  unfold readKey? at hk
  simp only [Option.map_eq_some_iff] at hk
  obtain ⟨x, hx, _⟩ := hk
  exact ⟨(x.getD spec.dflt).toNat, by unfold readKey readIntOr; rw [hx]; rfl⟩

theorem readPolyphony_defined (v : Text) : ∃ k, readPolyphony v = some k := by
  obtain ⟨x, hx⟩ := int_value_defined 0 4294967295 polyphonySpec v rfl
  exact ⟨_, by unfold readPolyphony; rw [hx]; rfl⟩

theorem readGroup_defined (v : Text) : ∃ k, readGroup v = some k := int_value_defined _ _ groupSpec v rfl

theorem parseKind_defined {r : Region} {v : Text} {k : Kind} (h : k ≠ .group → k ≠ .polyphony → (readNoteValue v).isSome) :
    ∃ r', parseKind r v k = some r' := by
  cases k <;> simp only [parseKind] <;>
    first
    | (obtain ⟨x, hx⟩ := readKey_defined (spec := loKeySpec) (h (by decide) (by decide)); rw [hx]; exact ⟨_, rfl⟩)
    | (obtain ⟨x, hx⟩ := readKey_defined (spec := hiKeySpec) (h (by decide) (by decide)); rw [hx]; exact ⟨_, rfl⟩)
    | (obtain ⟨x, hx⟩ := readKey_defined (spec := keySpec) (h (by decide) (by decide)); rw [hx]; exact ⟨_, rfl⟩)
    | (obtain ⟨x, hx⟩ := readKey?_defined (spec := keySpec) (h (by decide) (by decide)); rw [hx]; exact ⟨_, rfl⟩)
    | (obtain ⟨x, hx⟩ := readKey?_defined (spec := hiKeySpec) (h (by decide) (by decide)); rw [hx]; exact ⟨_, rfl⟩)
    | (obtain ⟨x, hx⟩ := readGroup_defined v; rw [hx]; exact ⟨_, rfl⟩)
    | (obtain ⟨x, hx⟩ := readPolyphony_defined v; rw [hx]; exact ⟨_, rfl⟩)
    | (split
       · exact ⟨_, rfl⟩
       · first
         | (obtain ⟨x, hx⟩ := readKey?_defined (spec := keySpec) (h (by decide) (by decide)); rw [hx]; exact ⟨_, rfl⟩)
         | (obtain ⟨x, hx⟩ := readKey_defined (spec := keySpec) (h (by decide) (by decide)); rw [hx]; exact ⟨_, rfl⟩))

theorem lookup_mem {t : Text} {k : Kind} : ∀ {l : List (Text × Kind)}, l.lookup t = some k → (t, k) ∈ l := by
  intro l
  induction l with
  | nil => intro h; cases h
  | cons x l ih =>
    intro h
    obtain ⟨a, b⟩ := x
    rw [List.lookup_cons] at h
    split at h
    · rename_i hb
      cases h
      rw [beq_iff_eq.mp hb]
      exact List.mem_cons_self
    · exact List.mem_cons_of_mem _ (ih h)

theorem parseCC_defined {r : Region} {t : Text} {ps : List Nat} {g : Guard} (h : ∃ n, ps.getLast? = some n) :
    ∃ x, parseCC r t ps g = some x := by
  obtain ⟨n, hn⟩ := h
  unfold parseCC
  rw [hn]
  dsimp only
  split
  · exact ⟨_, rfl⟩
  · cases g <;> dsimp only <;> split <;> exact ⟨_, rfl⟩

theorem parse_defined {other : Op → Bool} {o : Op} (ho : Sound o) (r : Region) : ∃ x, parseOpcode other r o = some x := by
  have hkinds : ∀ x ∈ kinds, x.2 ≠ .group → x.2 ≠ .polyphony → x.1 ∈ noteOpcodes := by decide
  have hcc : ∀ {r' : Region} {g : Guard}, guardOf (seen o.name).1 = some g →
      ∃ x, parseCC r' (seen o.name).1 (seen o.name).2 g = some x := fun hg => parseCC_defined (marked_has_number (guard_marked hg))
  unfold parseOpcode
  dsimp only
  split
  · rename_i k hk
    obtain ⟨r', hr'⟩ := parseKind_defined (r := r) (v := o.value) (k := k)
      (fun h1 h2 => ho.note (Or.inl (hkinds _ (lookup_mem hk) h1 h2)))
    rw [hr']; exact ⟨_, rfl⟩
  · split
    · rename_i hp
      have hn := ho.number (Or.inl hp)
      rw [(seen_hash o.name).2] at hn
      unfold parseLfo
      split
      · rename_i h0; rw [List.head?_eq_none_iff] at h0; exact absurd h0 hn
      · split
        · exact ⟨_, rfl⟩
        · dsimp only
          split
          · rename_i hg; exact hcc hg
          · exact ⟨_, rfl⟩
    · split
      · rename_i hp
        have hn := ho.number (Or.inr hp)
        rw [(seen_hash o.name).2] at hn
        unfold parseEnvelope
        split
        · rename_i h0; rw [List.head?_eq_none_iff] at h0; exact absurd h0 hn
        · split
          · exact ⟨_, rfl⟩
          · dsimp only
            split
            · rename_i ht
              have hc := seen_numbers o.name
              rw [ht] at hc
              have h2 : (seen o.name).2.length = 2 := by rw [← hc]; decide
              split
              · rename_i h0; rw [List.getElem?_eq_none_iff] at h0; omega
              · split <;> exact ⟨_, rfl⟩
            · split
              · exact ⟨_, rfl⟩
              · split
                · rename_i hg; exact hcc hg
                · exact ⟨_, rfl⟩
      · split
        · rename_i hg; exact hcc hg
        · exact ⟨_, rfl⟩

theorem parseAll_defined {other : Op → Bool} : ∀ (os : List Op), (∀ o ∈ os, Sound o) → ∀ (r : Region) (u : List Text), KeysOk r →
    ∃ x, parseAll (sfz other) r u os = some x ∧ KeysOk x.1 := by
  intro os
  induction os with
  | nil => intro _ r u hr; exact ⟨_, rfl, hr⟩
  | cons o os ih =>
    intro ho r u hr
    have ho' := fun p hp => ho p (List.mem_cons_of_mem _ hp)
    unfold parseAll
    split
    · exact ih ho' r u hr
    · obtain ⟨⟨r', b⟩, hx⟩ := parse_defined (other := other) (ho o List.mem_cons_self) r
      have hx' : (sfz other).parse r o = some (r', b) := hx
      rw [hx']
      have := parse_keys hr hx
      cases b
      · exact ih ho' r' _ this
      · exact ih ho' r' _ this

/-- The offsets are not huge. -/
def Small {ρ : Type} (s : State ρ) : Prop :=
  (-100000000 ≤ s.noteOffset ∧ s.noteOffset ≤ 100000000) ∧ (-100000000 ≤ s.octaveOffset ∧ s.octaveOffset ≤ 100000000)

theorem int32_some {v : Int} (h : -2147483648 ≤ v ∧ v ≤ 2147483647) : int32 v = some v := by
  unfold int32 intRange int32Min int32Max
  rw [if_pos (by constructor <;> omega)]

theorem switch_defined {ρ : Type} {s : State ρ} {k : Nat} (hs : Small s) (hk : k ≤ 127) : ∃ s', setCurrentSwitch s k = some s' := by
  obtain ⟨⟨a, b⟩, ⟨c, d⟩⟩ := hs
  unfold setCurrentSwitch
  simp only [Option.bind_eq_bind]
  rw [int32_some (by omega), Option.bind_some, int32_some (by omega), Option.bind_some, int32_some (by omega)]
  exact ⟨_, rfl⟩

theorem offsetAllKeys_defined {r : Region} (hr : KeysOk r) {d : Int} (hd : -2147483648 ≤ d ∧ d ≤ 2147483520) :
    ∃ r', offsetAllKeys d r = some r' := by
  have o1 : ∀ (k : Option Nat), (∀ x, k = some x → x ≤ 127) → ∃ k', offsetOpt k d = some k' := by
    intro k hk
    unfold offsetOpt
    split
    · exact ⟨_, rfl⟩
    · rename_i x; rw [key_moved_defined x d (hk x rfl) hd]; exact ⟨_, rfl⟩
  have o2 : ∀ (dflt x : R Nat), RangeOk x → ∃ y, offsetRange dflt x d = some y := by
    intro dflt x hx
    unfold offsetRange
    split
    · exact ⟨_, rfl⟩
    · rw [key_moved_defined _ d hx.1 hd, key_moved_defined _ d hx.2 hd]; exact ⟨_, rfl⟩
  obtain ⟨a, ha⟩ := o2 ⟨0, 127⟩ r.keys hr.keys
  obtain ⟨b, hb⟩ := o1 r.swUp hr.swUp
  obtain ⟨c, hc⟩ := o1 r.swLast hr.swLast
  obtain ⟨e, he⟩ := o1 r.swDown hr.swDown
  obtain ⟨f, hf⟩ := o1 r.swPrevious hr.swPrevious
  obtain ⟨g, hg⟩ := o2 ⟨0, 0⟩ r.xfin hr.xfin
  obtain ⟨i, hi⟩ := o2 ⟨127, 127⟩ r.xfout hr.xfout
  unfold offsetAllKeys
  rw [ha, key_moved_defined _ d hr.keycenter hd, hb, hc, he, hf, hg, hi]
  exact ⟨_, rfl⟩

theorem switchKeys_inside {r : Region} (hr : KeysOk r) : ∀ k ∈ switchKeys r, k < 128 := by
  intro k hk
  unfold switchKeys at hk
  simp only [List.mem_append, Option.mem_toList] at hk
  rcases hk with ((hk | hk) | hk) | hk
  · have := hr.swLast k hk; omega
  · split at hk
    · cases hk
    · rename_i x hx
      have := hr.swLastRange x hx
      rw [List.mem_range'_1] at hk
      have := this.2
      omega
  · have := hr.swUp k hk; omega
  · have := hr.swDown k hk; omega

theorem small_frame {ρ : Type} {s s' : State ρ} (h : Frame2 s s') (hs : Small s) : Small s' := by
  unfold Small
  rw [h.noteOffset, h.octaveOffset]
  exact hs

theorem uppers_defined {ρ : Type} : ∀ (os : List Op), (∀ o ∈ os, Sound o) → ∀ (s : State ρ), Small s →
    ∃ s', handleUppers s os = some s' := by
  intro os
  induction os with
  | nil => intro _ s _; exact ⟨s, rfl⟩
  | cons o os ih =>
    intro ho s hs
    have h1 : ∃ t, handleUpper s o = some t := by
      unfold handleUpper
      split
      · obtain ⟨n, hn⟩ := readPolyphony_defined o.value
        rw [hn]; exact ⟨_, rfl⟩
      · split
        · rename_i hd
          obtain ⟨k, hk⟩ := readKey_defined (spec := keySpec) ((ho o List.mem_cons_self).note (Or.inr hd))
          rw [hk]
          exact switch_defined hs (readKey_le rfl rfl (by decide) rfl rfl hk)
        · exact ⟨_, rfl⟩
    obtain ⟨t, ht⟩ := h1
    obtain ⟨u, hu⟩ := ih (fun p hp => ho p (List.mem_cons_of_mem _ hp)) t (small_frame (handleUpper_frame ht) hs)
    refine ⟨u, ?_⟩
    simp only [handleUppers, List.foldlM_cons, Option.bind_eq_bind]
    rw [ht]
    exact hu

theorem groups_defined {ρ : Type} (a b : List Op) (ho : ∀ o ∈ b ++ a, Sound o) (s : State ρ) (hs : Small s) :
    ∃ s', handleGroups s a b = some s' := by
  have key : ∀ (os : List Op), (∀ o ∈ os, Sound o) → ∀ (x : State ρ × Option Int × Option Nat), Small x.1 →
      ∃ y, os.foldlM handleGroup1 x = some y := by
    intro os
    induction os with
    | nil => intro _ s _; exact ⟨s, rfl⟩
    | cons o os ih =>
      intro ho x hx
      have h1 : ∃ t, handleGroup1 x o = some t := by
        unfold handleGroup1
        split
        · obtain ⟨n, hn⟩ := readGroup_defined o.value
          rw [hn]; exact ⟨_, rfl⟩
        · split
          · obtain ⟨n, hn⟩ := readPolyphony_defined o.value
            rw [hn]; exact ⟨_, rfl⟩
          · split
            · rename_i hd
              obtain ⟨k, hk⟩ := readKey_defined (spec := keySpec) ((ho o List.mem_cons_self).note (Or.inr hd))
              obtain ⟨u, hu⟩ := switch_defined hx (readKey_le rfl rfl (by decide) rfl rfl hk)
              rw [hk]
              simp only [Option.bind_eq_bind, Option.bind_some]
              rw [hu]; exact ⟨_, rfl⟩
            · exact ⟨_, rfl⟩
      obtain ⟨t, ht⟩ := h1
      obtain ⟨u, hu⟩ := ih (fun p hp => ho p (List.mem_cons_of_mem _ hp)) t (small_frame (handleGroup1_frame ht) hx)
      refine ⟨u, ?_⟩
      simp only [List.foldlM_cons, Option.bind_eq_bind]
      rw [ht]
      exact hu
  obtain ⟨y, hy⟩ := key (b ++ a) ho (s, none, none) hs
  unfold handleGroups
  rw [hy]; exact ⟨_, rfl⟩

theorem control_defined {ρ : Type} : ∀ (os : List Op), (∀ o ∈ os, Sound o) → ∀ (s : State ρ), Small s →
    ∃ s', handleControl s os = some s' ∧ Small s' := by
  intro os
  induction os with
  | nil => intro _ s hs; exact ⟨s, rfl, hs⟩
  | cons o os ih =>
    intro ho s hs
    have so := ho o List.mem_cons_self
    have h1 : ∃ t, handleControl1 s o = some t ∧ Small t := by
      unfold handleControl1
      split
      · exact ⟨_, rfl, hs⟩
      · split
        · rename_i hn
          obtain ⟨v, hv⟩ := int_value_defined int32Min int32Max noteOffsetSpec o.value rfl
          rw [hv]; exact ⟨_, rfl, so.noteOffset hn v hv, hs.2⟩
        · split
          · rename_i hn
            obtain ⟨v, hv⟩ := int_value_defined int32Min int32Max octaveOffsetSpec o.value rfl
            rw [hv]; exact ⟨_, rfl, hs.1, so.octaveOffset hn v hv⟩
          · split
            · rename_i hc
              have hm : '&' ∈ (seen o.name).1 := by rcases hc with hc | hc <;> rw [hc] <;> decide
              obtain ⟨n, hn⟩ := marked_has_number hm
              have h512 := so.setCC hc
              unfold lastNumber at h512
              rw [(seen_hash o.name).2, hn] at h512
              unfold setCC
              rw [hn]
              dsimp only
              split
              · rename_i hle
                split
                · exact ⟨_, rfl, hs⟩
                · rename_i hge
                  exact absurd (congrArg some (show n = 512 by omega)) h512
              · exact ⟨_, rfl, hs⟩
            · exact ⟨_, rfl, hs⟩
    obtain ⟨t, ht, hst⟩ := h1
    obtain ⟨u, hu, hsu⟩ := ih (fun p hp => ho p (List.mem_cons_of_mem _ hp)) t hst
    refine ⟨u, ?_, hsu⟩
    simp only [handleControl, List.foldlM_cons, Option.bind_eq_bind]
    rw [ht]
    exact hu

/-- C67: a file none of whose opcodes is one of those of `Sound` is read without any fault: every arithmetic operation is
defined and every table is accessed inside. -/
theorem load_defined_partial (other : Op → Bool) (file : List Block) (h : ∀ o ∈ opcodes file, Sound o) :
    ∃ s, load (sfz other) file = some s := by
  have key : ∃ s, load (sfz other) file = some s ∧ Small s := by
    induction file using List.reverseRecOn with
    | nil => exact ⟨_, rfl, ⟨by decide, by decide⟩, by decide, by decide⟩
    | append_singleton file b ih =>
      have hop : opcodes (file ++ [b]) = opcodes file ++ b.members := by simp [opcodes]
      rw [hop] at h
      obtain ⟨t, ht, hst⟩ := ih (fun o ho => h o (List.mem_append_left _ ho))
      have hm : ∀ o ∈ b.members, Sound o := fun o ho => h o (List.mem_append_right _ ho)
      have A := agrees ht
      have hl : load (sfz other) (file ++ [b]) = onBlock (sfz other) t b := by
        unfold load at ht ⊢
        rw [List.foldlM_append, ht]
        simp
      rw [hl]
      obtain ⟨hd, members⟩ := b
      unfold onBlock
      cases hd <;> simp only
      · obtain ⟨u, hu⟩ := uppers_defined members hm
          { newRegionSet { t with globals := members } 1 with groups := [], masters := [] } hst
        exact ⟨u, hu, small_frame (handleUppers_frame hu) hst⟩
      · exact control_defined members hm { t with path := [] } hst
      · obtain ⟨u, hu⟩ := uppers_defined members hm { newRegionSet { t with masters := members } 3 with groups := [] } hst
        exact ⟨u, hu, small_frame (handleUppers_frame hu) hst⟩
      · obtain ⟨u, hu⟩ := groups_defined members t.masters (by
          intro o ho
          rcases List.mem_append.mp ho with ho | ho
          · rw [A.masters] at ho; exact h o (List.mem_append_left _ (mem_lastOf ho))
          · exact hm o ho) (newRegionSet { t with groups := members } 4) hst
        exact ⟨u, hu, small_frame (handleGroups_frame hu) hst⟩
      · obtain ⟨x, hx, hkx⟩ := parseAll_defined (other := other) (t.globals ++ t.masters ++ t.groups ++ members) (by
          intro o ho
          rw [A.globals, A.masters, A.groups] at ho
          rcases List.mem_append.mp ho with ho | ho
          · exact h o (List.mem_append_left _ (mem_inherited ho))
          · exact hm o ho) ((sfz other).fresh t.layers.length t.path) t.unknown
          (fresh_keys _ _)
        have htr : ∃ r, transpose (sfz other) t.octaveOffset t.noteOffset x.1 = some r ∧ KeysOk r := by
          unfold transpose
          split
          · obtain ⟨⟨a, b⟩, ⟨c, d⟩⟩ := hst
            have : shift t.octaveOffset t.noteOffset = some (t.octaveOffset * 12 + t.noteOffset) := by
              unfold shift
              simp only [Option.bind_eq_bind]
              rw [int32_some (by omega), Option.bind_some, int32_some (by omega)]
            rw [this]
            obtain ⟨r, hr⟩ := offsetAllKeys_defined hkx (d := t.octaveOffset * 12 + t.noteOffset) (by omega)
            exact ⟨r, hr, offset_keys hkx hr⟩
          · exact ⟨_, rfl, hkx⟩
        obtain ⟨r, hr, hkr⟩ := htr
        have hen : ∃ u, enterRegion (sfz other) { t with unknown := x.2 } r = some u := by
          unfold enterRegion
          rw [if_pos (by simp only [List.all_eq_true, decide_eq_true_eq]; exact switchKeys_inside hkr)]
          dsimp only
          split
          · exact ⟨_, rfl⟩
          · rename_i key hkey
            obtain ⟨u, hu⟩ := switch_defined (s := { t with unknown := x.2 }) hst (hkr.swDefault key hkey)
            rw [hu]; exact ⟨_, rfl⟩
        obtain ⟨u, hu⟩ := hen
        have hb : buildRegion (sfz other) t members = some u := by
          unfold buildRegion
          simp only [Option.bind_eq_bind]
          rw [hx, Option.bind_some, hr, Option.bind_some, hu]
        obtain ⟨_, _, _, _, _, _, _, _, _, _, hn, ho, _⟩ := buildRegion_spec hb
        refine ⟨u, hb, ?_⟩
        unfold Small
        rw [hn, ho]; exact hst
      · exact ⟨t, rfl, hst⟩
  obtain ⟨s, hs, _⟩ := key
  exact ⟨s, hs⟩

/-- The opcodes of the sample file are sound. -/
example : ∀ o ∈ opcodes sample, Sound o := by
  have e : opcodes sample = [op "default_path" "a\\b/", op "note_offset" "2", op "lokey" "20", op "polyphony" "9", op "hikey" "80",
    op "lokey" "30", op "polyphony" "5", op "hikey" "70"] := by decide
  rw [e]
  intro o ho
  simp only [List.mem_cons, List.not_mem_nil, or_false] at ho
  rcases ho with rfl | rfl | rfl | rfl | rfl | rfl | rfl | rfl
  all_goals
    constructor
    · exact fun _ => by decide +kernel
    · intro h; first
        | exact absurd h (by decide +kernel)
        | (intro v hv
           have e : readIntOr int32Min int32Max noteOffsetSpec (op "note_offset" "2").value = some 2 := by decide +kernel
           rw [e] at hv; cases hv; decide)
    · intro h; exact absurd h (by decide +kernel)
    · exact fun h => absurd h (by decide +kernel)
    · exact fun h => absurd h (by decide +kernel)

end Verif.Loader
