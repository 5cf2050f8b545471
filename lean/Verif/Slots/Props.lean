import Verif.Slots.Model
import Verif.Loader.Transpose
import Verif.BitArray.Props
import Verif.Connections.Values
import Verif.Modulations.Region
import Verif.Engine.Pedals

/-!
C147: the keys, key-switches and controllers that the engine tells to be in use are the ones of the instrument.
C148: the controllers that it tells to have changed are the ones which did.
-/
namespace Verif.Slots
open Verif.Loader (Region)
open Verif.Connections (Src Uses ofVoice)

/-! ### Lemmas: bit arrays -/

theorem set_rep {n : Nat} {d : List (BitVec 8)} {s : Nat → Bool} (h : BitArray.Rep n d s) {i : Nat} (hi : i < n) :
    ∃ d', BitArray.set d i = some d' ∧ BitArray.Rep n d' (fun k => if k = i then true else s k) :=
  BitArray.step_spec n d s (.set i) h (Or.inr hi)

theorem marks_rep {n : Nat} : ∀ (l : List Nat) {d : List (BitVec 8)} {s : Nat → Bool}, BitArray.Rep n d s → (∀ i ∈ l, i < n) →
    ∃ d', l.foldlM BitArray.set d = some d' ∧ BitArray.Rep n d' (fun k => s k || decide (k ∈ l)) := by
  intro l
  induction l with
  | nil => intro d s h _; exact ⟨d, rfl, by simpa using h⟩
  | cons i l ih =>
    intro d s h hl
    obtain ⟨d1, h1, h2⟩ := set_rep h (hl i (by simp))
    obtain ⟨d2, h3, h4⟩ := ih h2 (fun j hj => hl j (by simp [hj]))
    refine ⟨d2, ?_, ?_⟩
    · simp only [List.foldlM_cons, Option.bind_eq_bind, h1, Option.bind_some, h3]
    · have : (fun k => s k || decide (k ∈ i :: l)) = fun k => (if k = i then true else s k) || decide (k ∈ l) := by
        funext k
        by_cases hk : k = i <;> simp [hk]
      rw [this]; exact h4

theorem markKeys_rep {d : List (BitVec 8)} {s : Nat → Bool} (h : BitArray.Rep 128 d s) {lo hi : Nat} (hh : hi ≤ 127) :
    ∃ d', markKeys d lo hi = some d' ∧ BitArray.Rep 128 d' (fun k => s k || decide (lo ≤ k ∧ k ≤ hi)) := by
  obtain ⟨d', h1, h2⟩ := marks_rep (List.range' lo (hi + 1 - lo)) h (fun i hi' => by
    rw [List.mem_range'_1] at hi'; omega)
  refine ⟨d', h1, ?_⟩
  have : (fun k => s k || decide (lo ≤ k ∧ k ≤ hi)) = fun k => s k || decide (k ∈ List.range' lo (hi + 1 - lo)) := by
    funext k
    congr 1
    rw [decide_eq_decide, List.mem_range'_1]
    omega
  rw [this]; exact h2

theorem fold_rep {A : Type} (f : List (BitVec 8) → A → Option (List (BitVec 8))) (g : A → Nat → Bool) : ∀ (l : List A),
    (∀ a ∈ l, ∀ d s, BitArray.Rep 128 d s → ∃ d', f d a = some d' ∧ BitArray.Rep 128 d' (fun k => s k || g a k)) →
    ∀ {d : List (BitVec 8)} {s : Nat → Bool}, BitArray.Rep 128 d s →
    ∃ d', l.foldlM f d = some d' ∧ BitArray.Rep 128 d' (fun k => s k || l.any (fun a => g a k)) := by
  intro l
  induction l with
  | nil => intro _ d s h; exact ⟨d, rfl, by simpa using h⟩
  | cons a l ih =>
    intro hf d s h
    obtain ⟨d1, h1, h2⟩ := hf a (by simp) d s h
    obtain ⟨d2, h3, h4⟩ := ih (fun b hb => hf b (by simp [hb])) h2
    refine ⟨d2, ?_, ?_⟩
    · simp only [List.foldlM_cons, Option.bind_eq_bind, h1, Option.bind_some, h3]
    · simpa [Bool.or_assoc] using h4

theorem rep_test {n : Nat} {d : List (BitVec 8)} {s : Nat → Bool} (h : BitArray.Rep n d s) {k : Nat} (hk : k < n) : BitArray.test d k = some (s k) := by
  have hlt : k / 8 < d.length := by rw [h.1]; unfold BitArray.byteSize; omega
  have hb := h.2.1 k
  unfold BitArray.bitAt at hb
  unfold BitArray.test
  rw [List.getElem?_eq_getElem hlt] at hb ⊢
  simp only [Option.map_some, Option.getD_some] at hb ⊢
  rw [BitArray.and_bit_ne, hb]

/-! ### C147: keys -/

/-- **The keys told to be in use** are the keys in the range of some region, whatever the file. -/
theorem key_slots (other : Loader.Op → Bool) (file : List Loader.Block) (s : Loader.State Region)
    (h : Loader.load (Loader.sfz other) file = some s) :
    ∃ d, keySlots (s.layers.map (·.1)) = some d ∧ ∀ k, k < 128 →
      BitArray.test d k = some (decide (∃ l ∈ s.layers, l.1.keys.start ≤ k ∧ k ≤ l.1.keys.stop)) := by
  have ok := Loader.keys_on_keyboard_partial other file s h
  obtain ⟨d, h1, h2⟩ := fold_rep (fun d (r : Region) => markKeys d r.keys.start r.keys.stop)
    (fun r k => decide (r.keys.start ≤ k ∧ k ≤ r.keys.stop)) (s.layers.map (·.1))
    (fun r hr d t ht => by
      obtain ⟨l, hl, rfl⟩ := List.mem_map.1 hr
      exact markKeys_rep ht (ok l hl).keys.2) (BitArray.rep_init 128)
  refine ⟨d, h1, fun k hk => ?_⟩
  rw [rep_test h2 hk]
  congr 1
  rw [Bool.eq_iff_iff]
  simp

/-- **The key-switches told to be in use** are the keys that the `sw_last` of some region names, or its `sw_lolast` and `sw_hilast`. -/
theorem switch_slots (other : Loader.Op → Bool) (file : List Loader.Block) (s : Loader.State Region)
    (h : Loader.load (Loader.sfz other) file = some s) :
    ∃ d, swLastSlots (s.layers.map (·.1)) = some d ∧ ∀ k, k < 128 →
      BitArray.test d k = some (decide (∃ l ∈ s.layers, l.1.swLast = some k ∨
        (l.1.swLast = none ∧ ∃ x, l.1.swLastRange = some x ∧ x.start ≤ k ∧ k ≤ x.stop))) := by
  have ok := Loader.keys_on_keyboard_partial other file s h
  obtain ⟨d, h1, h2⟩ := fold_rep markSwitch
    (fun r k => decide (r.swLast = some k ∨ (r.swLast = none ∧ ∃ x, r.swLastRange = some x ∧ x.start ≤ k ∧ k ≤ x.stop))) (s.layers.map (·.1))
    (fun r hr d t ht => by
      obtain ⟨l, hl, rfl⟩ := List.mem_map.1 hr
      have hk := ok l hl
      unfold markSwitch
      cases hs : l.1.swLast with
      | some k =>
        obtain ⟨d', e1, e2⟩ := set_rep ht (i := k) (by have := hk.swLast k hs; omega)
        refine ⟨d', e1, ?_⟩
        have : (fun j => t j || decide ((some k : Option Nat) = some j ∨ ((some k : Option Nat) = none ∧ ∃ x, l.1.swLastRange = some x ∧ x.start ≤ j ∧ j ≤ x.stop)))
            = fun j => if j = k then true else t j := by
          funext j
          by_cases hj : j = k
          · simp [hj]
          · simp [hj, Ne.symm hj]
        rw [this]; exact e2
      | none =>
        cases hr : l.1.swLastRange with
        | some x =>
          obtain ⟨d', e1, e2⟩ := markKeys_rep ht (lo := x.start) (hk.swLastRange x hr).2
          refine ⟨d', e1, ?_⟩
          have : (fun j => t j || decide ((none : Option Nat) = some j ∨ ((none : Option Nat) = none ∧ ∃ y, some x = some y ∧ y.start ≤ j ∧ j ≤ y.stop)))
              = fun j => t j || decide (x.start ≤ j ∧ j ≤ x.stop) := by
            funext j; simp
          rw [this]; exact e2
        | none => exact ⟨d, rfl, by simpa using ht⟩) (BitArray.rep_init 128)
  refine ⟨d, h1, fun k hk => ?_⟩
  rw [rep_test h2 hk]
  congr 1
  rw [Bool.eq_iff_iff]
  simp

/-- Two regions: keys 60 to 62 and 40; key-switches 24 and 30 to 31. -/
example : (Loader.load (Loader.sfz (fun _ => true)) [⟨.region, [⟨"lokey".toList, "60".toList⟩, ⟨"hikey".toList, "62".toList⟩, ⟨"sw_last".toList, "24".toList⟩]⟩,
    ⟨.region, [⟨"key".toList, "40".toList⟩, ⟨"sw_lolast".toList, "30".toList⟩, ⟨"sw_hilast".toList, "31".toList⟩]⟩]).bind (fun s =>
      (keySlots (s.layers.map (·.1))).bind (fun a => (swLastSlots (s.layers.map (·.1))).map (fun b =>
        ((List.range 128).filter (fun k => BitArray.test a k == some true), (List.range 128).filter (fun k => BitArray.test b k == some true))))) =
    some ([40, 60, 61, 62], [24, 30, 31]) := by decide +kernel

/-- **The pedals told to be in use** are the controllers that hold the notes of some region, by `sustain_cc` or by `sostenuto_cc`; these are
bytes. -/
theorem pedal_slots (pedals : List (Nat × Nat)) (h : ∀ p ∈ pedals, p.1 < 256 ∧ p.2 < 256) :
    ∃ d, pedalSlots pedals = some d ∧ ∀ n, n < 512 → BitArray.test d n = some (decide (∃ p ∈ pedals, n = p.1 ∨ n = p.2)) := by
  have flat : ∀ (l : List (Nat × Nat)) (d : List (BitVec 8)),
      l.foldlM (fun d p => (BitArray.set d p.1).bind fun d' => BitArray.set d' p.2) d = (l.flatMap fun p => [p.1, p.2]).foldlM BitArray.set d := by
    intro l
    induction l with
    | nil => intro d; rfl
    | cons p l ih =>
      intro d
      simp only [List.foldlM_cons, List.flatMap_cons, List.cons_append, List.nil_append, Option.bind_eq_bind]
      cases BitArray.set d p.1 with
      | none => rfl
      | some d' =>
        simp only [Option.bind_some]
        cases BitArray.set d' p.2 with
        | none => rfl
        | some d'' => exact ih d''
  obtain ⟨d, h1, h2⟩ := marks_rep (n := 512) (pedals.flatMap fun p => [p.1, p.2]) (BitArray.rep_init 512) (fun i hi => by
    obtain ⟨p, hp, hi⟩ := List.mem_flatMap.1 hi
    have := h p hp
    simp only [List.mem_cons, List.not_mem_nil, or_false] at hi
    omega)
  refine ⟨d, by rw [pedalSlots, flat]; exact h1, fun n hn => ?_⟩
  rw [rep_test h2 hn]
  congr 1
  rw [Bool.eq_iff_iff]
  simp

example : (pedalSlots [(64, 66), (64, 69)]).map (fun d => (List.range 512).filter fun n => BitArray.test d n == some true) = some [64, 66, 69] := by
  decide +kernel

/-- **Keys violated**: a region that no key starts (`hikey=-1`) puts all the keys from its `lokey` on in use. -/
theorem keys_violated :
    (Loader.load (Loader.sfz (fun _ => true)) [⟨.region, [⟨"lokey".toList, "125".toList⟩, ⟨"hikey".toList, "-1".toList⟩]⟩]).bind (fun s =>
      (keySlots (s.layers.map (·.1))).map (fun a => (s.layers.map (fun l => l.1.onNote), (List.range 128).filter (fun k => BitArray.test a k == some true)))) =
    some ([false], [125, 126, 127]) := by decide +kernel

/-! ### C147: controllers -/

theorem source_keys (srcOf : Src → ModMatrix.Source) (b : ModMatrix.Builder Src) (k x : Src) :
    x ∈ (ModMatrix.registerSource srcOf b k).2.srcs.map (·.1) ↔ x ∈ b.srcs.map (·.1) ∨ x = k := by
  unfold ModMatrix.registerSource
  cases h : ModMatrix.indexOf b.srcs k with
  | some i =>
    obtain ⟨a, ha⟩ := ModMatrix.indexOf_lt h
    have : k ∈ b.srcs.map (·.1) := List.mem_map.2 ⟨_, List.mem_of_getElem? ha, rfl⟩
    simp only
    exact ⟨Or.inl, fun e => e.elim id (fun e => e ▸ this)⟩
  | none => simp

theorem target_srcs (tgtOf : Src → ModMatrix.Target) (b : ModMatrix.Builder Src) (k : Src) : (ModMatrix.registerTarget tgtOf b k).2.srcs = b.srcs := by
  unfold ModMatrix.registerTarget
  split <;> rfl

theorem depth_srcs (tgtOf : Src → ModMatrix.Target) (b : ModMatrix.Builder Src) (k : Option Src) : (ModMatrix.registerDepth tgtOf b k).2.srcs = b.srcs := by
  cases k with
  | none => rfl
  | some k => exact target_srcs tgtOf b k

theorem setupConn_keys (srcOf : Src → ModMatrix.Source) (tgtOf : Src → ModMatrix.Target) (b : ModMatrix.Builder Src) (c : Connections.Connection) (x : Src) :
    x ∈ (Connections.setupConn srcOf tgtOf b c).srcs.map (·.1) ↔ x ∈ b.srcs.map (·.1) ∨ x = Connections.sourceKey c := by
  have : (Connections.setupConn srcOf tgtOf b c).srcs = (ModMatrix.registerSource srcOf b (Connections.sourceKey c)).2.srcs := by
    unfold Connections.setupConn ModMatrix.connect
    dsimp only
    split
    · exact target_srcs _ _ _
    · dsimp only
      rw [depth_srcs, target_srcs]
  rw [this]
  exact source_keys srcOf b _ x

theorem setup_keys (srcOf : Src → ModMatrix.Source) (tgtOf : Src → ModMatrix.Target) (x : Src) : ∀ (l : List Connections.Connection) (b : ModMatrix.Builder Src),
    x ∈ (l.foldl (Connections.setupConn srcOf tgtOf) b).srcs.map (·.1) ↔ x ∈ b.srcs.map (·.1) ∨ ∃ c ∈ l, x = Connections.sourceKey c
  | [], b => by simp
  | c :: l, b => by
    rw [List.foldl_cons, setup_keys srcOf tgtOf x l, setupConn_keys]
    simp [or_assoc]

theorem isController_key (n : Nat) (c : Connections.Connection) : isController n (Connections.sourceKey c) = Connections.usesCC n c := by
  unfold isController Connections.sourceKey Connections.usesCC
  cases c.source with
  | other k => rfl
  | ctl k =>
    simp only [Connections.prepare_cc]
    congr 1
    unfold Controller.prepare
    split <;> rfl

theorem usedCCs_eq (srcOf : Src → ModMatrix.Source) (tgtOf : Src → ModMatrix.Target) (rs : List Connections.Region) (n : Nat) :
    usedCCs srcOf tgtOf rs n = true ↔ ∃ r ∈ rs, r.used n = true ∨ ∃ c ∈ Connections.final rs r, Connections.usesCC n c = true := by
  have key : ((Connections.setup srcOf tgtOf rs).srcs.any (fun p => isController n p.1)) = true ↔
      ∃ c ∈ rs.flatMap (Connections.final rs), Connections.usesCC n c = true := by
    have : (Connections.setup srcOf tgtOf rs).srcs.any (fun p => isController n p.1) = ((Connections.setup srcOf tgtOf rs).srcs.map (·.1)).any (isController n) := by
      rw [List.any_map]; rfl
    rw [this, List.any_eq_true]
    constructor
    · rintro ⟨x, hx, hn⟩
      unfold Connections.setup at hx
      rw [setup_keys] at hx
      rcases hx with hx | ⟨c, hc, rfl⟩
      · simp at hx
      · exact ⟨c, hc, by rw [← isController_key]; exact hn⟩
    · rintro ⟨c, hc, hn⟩
      refine ⟨Connections.sourceKey c, ?_, by rw [isController_key]; exact hn⟩
      unfold Connections.setup
      rw [setup_keys]
      exact Or.inr ⟨c, hc, rfl⟩
  unfold usedCCs
  rw [Bool.or_eq_true, key, List.any_eq_true]
  simp only [List.mem_flatMap]
  constructor
  · rintro (⟨r, hr, h⟩ | ⟨c, ⟨r, hr, hc⟩, h⟩)
    · exact ⟨r, hr, Or.inl h⟩
    · exact ⟨r, hr, Or.inr ⟨c, hc, h⟩⟩
  · rintro ⟨r, hr, h | ⟨c, hc, h⟩⟩
    · exact Or.inl ⟨r, hr, h⟩
    · exact Or.inr ⟨c, ⟨r, hr, hc⟩, h⟩

theorem extra_uses (used : Nat → Bool) (id n : Nat) :
    (∃ c ∈ Connections.extra used id, Connections.usesCC n c = true) ↔ (n = 7 ∨ n = 10 ∨ n = 11) ∧ used n = false := by
  unfold Connections.extra
  constructor
  · rintro ⟨c, hc, hn⟩
    simp only [List.mem_append] at hc
    rcases hc with (hc | hc) | hc
    all_goals
      split at hc
      · exact (List.not_mem_nil hc).elim
      · rename_i hu
        rw [List.mem_singleton] at hc
        subst hc
        simp only [Connections.usesCC, Bool.and_eq_true, beq_iff_eq] at hn
        obtain ⟨_, rfl⟩ := hn
        exact ⟨by decide, by simpa using hu⟩
  · rintro ⟨rfl | rfl | rfl, hu⟩
    · exact ⟨_, by simp only [List.mem_append]; exact Or.inl (Or.inl (by rw [if_neg (by simp [hu])]; exact List.mem_singleton_self _)), rfl⟩
    · exact ⟨_, by simp only [List.mem_append]; exact Or.inl (Or.inr (by rw [if_neg (by simp [hu])]; exact List.mem_singleton_self _)), rfl⟩
    · exact ⟨_, by simp only [List.mem_append]; exact Or.inr (by rw [if_neg (by simp [hu])]; exact List.mem_singleton_self _), rfl⟩

/-- **The controllers told to be in use**, but for those which have a value for each voice: the controllers that some region uses, for a
modulation or otherwise, and for any instrument with a region the ones of volume, pan and expression. -/
theorem controller_slots_partial (srcOf : Src → ModMatrix.Source) (tgtOf : Src → ModMatrix.Target) (rs : List Connections.Region) (n : Nat) (hn : n < 512)
    (hv : ofVoice n = false) :
    usedCCs srcOf tgtOf rs n = true ↔ Uses rs n ∨ (rs ≠ [] ∧ (n = 7 ∨ n = 10 ∨ n = 11)) := by
  rw [usedCCs_eq]
  have hu := Connections.usedCCs_iff rs n hn hv
  constructor
  · rintro ⟨r, hr, h | ⟨c, hc, h⟩⟩
    · exact Or.inl ⟨r, hr, Or.inl h⟩
    · rw [Connections.final_eq rs r hr, List.mem_append] at hc
      rcases hc with hc | hc
      · left
        rw [← hu]
        unfold Connections.usedCCs
        rw [List.any_eq_true]
        exact ⟨r, hr, by rw [Bool.or_eq_true, List.any_eq_true]; exact Or.inr ⟨c, hc, h⟩⟩
      · right
        exact ⟨List.ne_nil_of_mem hr, ((extra_uses _ _ _).1 ⟨c, hc, h⟩).1⟩
  · have go : Connections.usedCCs rs n = true → ∃ r ∈ rs, r.used n = true ∨ ∃ c ∈ Connections.final rs r, Connections.usesCC n c = true := by
      intro h
      unfold Connections.usedCCs at h
      rw [List.any_eq_true] at h
      obtain ⟨r, hr, h⟩ := h
      rw [Bool.or_eq_true, List.any_eq_true] at h
      rcases h with h | ⟨c, hc, h⟩
      · exact ⟨r, hr, Or.inl h⟩
      · exact ⟨r, hr, Or.inr ⟨c, by rw [Connections.final_eq rs r hr, List.mem_append]; exact Or.inl hc, h⟩⟩
    rintro (h | ⟨hne, hd⟩)
    · exact go (hu.2 h)
    · cases huse : Connections.usedCCs rs n with
      | true => exact go huse
      | false =>
        obtain ⟨r, hr⟩ := List.exists_mem_of_ne_nil rs hne
        obtain ⟨c, hc, h⟩ := (extra_uses (Connections.usedCCs rs) r.id n).2 ⟨hd, huse⟩
        exact ⟨r, hr, Or.inr ⟨c, by rw [Connections.final_eq rs r hr, List.mem_append]; exact Or.inr hc, h⟩⟩

/-- **The controllers with a value for each voice** are told to be in use only when a region uses them otherwise than for a modulation. -/
theorem voice_controller_slots (srcOf : Src → ModMatrix.Source) (tgtOf : Src → ModMatrix.Target) (rs : List Connections.Region) (n : Nat)
    (hv : ofVoice n = true) : usedCCs srcOf tgtOf rs n = true ↔ ∃ r ∈ rs, r.used n = true := by
  rw [usedCCs_eq]
  constructor
  · rintro ⟨r, hr, h | ⟨c, hc, h⟩⟩
    · exact ⟨r, hr, h⟩
    · exfalso
      rw [Connections.final_eq rs r hr, List.mem_append] at hc
      rcases hc with hc | hc
      · have hg := Connections.good_after r.id (r.ops ++ [Connections.envelope r]) [] (by simp) c hc
        unfold Connections.usesCC at h
        cases hs : c.source with
        | other k => simp [hs] at h
        | ctl k =>
          simp only [hs, Bool.and_eq_true, beq_iff_eq] at h
          have := (hg k hs).1
          rw [h.2, hv] at this
          rw [this] at h
          simp at h
      · have := ((extra_uses _ _ _).1 ⟨c, hc, h⟩).1
        rcases this with rfl | rfl | rfl <;> exact absurd hv (by decide)
  · rintro ⟨r, hr, h⟩
    exact ⟨r, hr, Or.inl h⟩

/-- **From the text**: a controller named by an opcode `<parameter>_onccN` (or `_curveccN`, `_stepccN`, `_smoothccN`) of a region is told to be in
use. -/
theorem named_controller_slots (srcOf : Src → ModMatrix.Source) (tgtOf : Src → ModMatrix.Target) (rs : List Connections.Region) (id : Nat)
    (os : List Loader.Op) (flex : Option Nat) (used : Nat → Bool) (hr : (⟨id, Modulations.allEffects id 0 os, flex, used⟩ : Connections.Region) ∈ rs)
    (p : Modulations.Parameter) (hp : p.Ok) (w : Opcode.Category × Opcode.Text) (hw : w ∈ Opcode.words) (n : Nat) (hn : n < 512)
    (hv : ofVoice n = false) (value : Opcode.Text) (ho : ⟨Modulations.ccName p.text w n, value⟩ ∈ os) :
    usedCCs srcOf tgtOf rs n = true := by
  rw [controller_slots_partial srcOf tgtOf rs n hn hv]
  refine Or.inl ⟨_, hr, Or.inr ⟨p.key id, Modulations.said p.percent w.1 value, ?_⟩⟩
  obtain ⟨a, b, rfl⟩ := List.append_of_mem ho
  dsimp only
  rw [Modulations.allEffects_append, Modulations.allEffects, Modulations.controller_opcode id _ p hp w hw n (by omega) value]
  simp

/-- An instrument with modulations by the controllers 1, 131 and 7, and a condition on the controller 10: 1, 7, 10 and 11 are told. -/
example : (List.range 512).filter (usedCCs Connections.sampleSrc Connections.sampleTgt [Connections.melody, Connections.drums]) = [1, 7, 10, 11] := by
  decide +kernel

/-- **Controllers violated**: a modulation by the velocity (controller 131) is not told. -/
theorem controllers_violated (srcOf : Src → ModMatrix.Source) (tgtOf : Src → ModMatrix.Target) :
    Uses [Connections.melody] 131 ∧ usedCCs srcOf tgtOf [Connections.melody] 131 = false := by
  refine ⟨⟨Connections.melody, List.mem_singleton_self _, Or.inr ⟨⟨.Volume, some 0, 0, 0⟩, .on 6, by decide +kernel⟩⟩, ?_⟩
  rw [Bool.eq_false_iff]
  intro h
  rw [voice_controller_slots srcOf tgtOf [Connections.melody] 131 (by decide)] at h
  obtain ⟨r, hr, h⟩ := h
  rw [List.mem_singleton.1 hr] at h
  simp [Connections.melody] at h

end Verif.Slots
