import Verif.Modulations.More

/-!
C145, continued: an opcode acts on a modulation only if its name says so, and the depth of a modulation of a region is the one which the
opcodes of the region give, whatever the other opcodes are.
-/
namespace Verif.Modulations
open Verif.Opcode
open Verif.ModMatrix (ModKey ModId)
open Verif.Connections (Op Param names links onGiven depthGiven lastOf ccSaid linkSaid)

/-- The name of an opcode with its numbers forgotten. -/
def lettersOf (name : Text) : Text := (Loader.seen name).1

/-! ### Which targets and sources occur -/

/-- The parameters. -/
def paramIds : List ModId :=
  [.Volume, .Amplitude, .Pan, .Position, .Width, .Pitch, .OscillatorDetune, .OscillatorModDepth, .FilCutoff, .FilResonance, .FilGain,
   .EqGain, .EqFrequency, .EqBandwidth]

theorem key_mem (p : Parameter) (region : Nat) : (p.key region).id ∈ paramIds := by cases p <;> (simp only [Parameter.key]; decide)

/-- No controller on a parameter, no numbered modulator. -/
def Apart : Op → Prop
  | .cc _ t _ => t.id ∉ paramIds
  | .depth s _ _ | .depthMod s _ _ | .vel s _ _ | .make s _ => s.id ≠ .LFO ∧ s.id ≠ .Envelope

theorem genericCc_mem {percent : Bool} {name value : Text} {t : ModKey} {op : Op} (h : op ∈ genericCc percent name value t) :
    ∃ n q, op = .cc n t q := by
  unfold genericCc at h
  split at h
  · rw [List.mem_singleton] at h
    exact ⟨_, _, h⟩
  · exact (List.not_mem_nil h).elim

/-- What is known of the modulators of the first version. -/
def ClassicOk (m : Classic) : Prop :=
  (m.source ≠ .LFO ∧ m.source ≠ .Envelope) ∧ m.depth ∉ paramIds ∧ m.freq ∉ paramIds

theorem classics_ok : ∀ m ∈ classics, ClassicOk m := by
  unfold ClassicOk
  decide +kernel

theorem classicEG_apart (region : Nat) (m : Classic) (hm : ClassicOk m) (name value : Text) :
    ∀ ops, classicEG region m name value = some ops → ∀ op ∈ ops, Apart op := by
  obtain ⟨hs, hd, hf⟩ := hm
  intro ops h op ho
  unfold classicEG at h
  split at h
  · cases h
    rw [List.mem_singleton] at ho; subst ho; exact hs
  · split at h
    · cases h
      rw [List.mem_singleton] at ho; subst ho; exact hs
    · split at h
      · cases h
        rcases List.mem_cons.mp ho with rfl | ho
        · exact hs
        · obtain ⟨n, q, rfl⟩ := genericCc_mem ho; exact hd
      · split at h
        · cases h; exact (List.not_mem_nil ho).elim
        · split at h
          · split at h
            · cases h
            · split at h
              · cases h
              · cases h; exact (List.not_mem_nil ho).elim
          · cases h

theorem aftertouch_apart (region : Nat) : (channelAftertouch.id ≠ .LFO ∧ channelAftertouch.id ≠ .Envelope) ∧
    ((key region .PolyAftertouch).id ≠ .LFO ∧ (key region .PolyAftertouch).id ≠ .Envelope) := by
  simp only [channelAftertouch, key]
  decide

theorem classicLFO_apart (region : Nat) (m : Classic) (hm : ClassicOk m) (name value : Text) :
    ∀ ops, classicLFO region m name value = some ops → ∀ op ∈ ops, Apart op := by
  obtain ⟨hs, hd, hf⟩ := hm
  obtain ⟨a1, a2⟩ := aftertouch_apart region
  intro ops h op ho
  unfold classicLFO at h
  split at h
  · cases h; exact (List.not_mem_nil ho).elim
  split at h
  · cases h
    rw [List.mem_singleton] at ho; subst ho; exact hs
  split at h
  · cases h
    rcases List.mem_cons.mp ho with rfl | ho
    · exact hs
    · obtain ⟨n, q, rfl⟩ := genericCc_mem ho; exact hd
  split at h
  · cases h
    rcases List.mem_cons.mp ho with rfl | ho
    · exact hs
    · rw [List.mem_singleton] at ho; subst ho; exact a1
  split at h
  · cases h
    rcases List.mem_cons.mp ho with rfl | ho
    · exact hs
    · rw [List.mem_singleton] at ho; subst ho; exact a2
  split at h
  · cases h
    obtain ⟨n, q, rfl⟩ := genericCc_mem ho; exact hf
  split at h
  · cases h
    rw [List.mem_singleton] at ho; subst ho; exact a1
  split at h
  · cases h
    rw [List.mem_singleton] at ho; subst ho; exact a2
  · cases h

theorem classic_apart (region : Nat) (m : Classic) (hm : ClassicOk m) (name value : Text) :
    ∀ op ∈ classic region m name value, Apart op := by
  intro op ho
  unfold classic at ho
  split at ho
  · exact (List.not_mem_nil ho).elim
  · next ops h =>
    rcases List.mem_append.mp ho with ho | ho
    · split at h
      · exact classicLFO_apart region m hm name value ops h op ho
      · exact classicEG_apart region m hm name value ops h op ho
    · rw [List.mem_singleton] at ho; subst ho; exact hm.1

theorem depthKey_apart (s t d : ModKey) (h : ModMatrix.getSourceDepthKey s t = some d) : d.id ∉ paramIds := by
  unfold ModMatrix.getSourceDepthKey at h
  simp only at h
  split at h <;> first
    | (cases h; dsimp only; decide)
    | cases h

/-- What the opcodes of a numbered modulator do. -/
def Numbered (table : List Entry) (source : ModKey) (letters : Text) : Op → Prop
  | .cc _ t _ => t.id ∉ paramIds
  | .depth s t _ => s = source ∧ ∃ e ∈ table, e.id = t.id ∧ letters = e.letters
  | .depthMod s t _ => s = source ∧ ∃ e ∈ table, e.id = t.id ∧ anyCc e.letters letters = true
  | .vel _ _ _ | .make _ _ => False

theorem targetKey_id {region : Nat} {id : ModId} {b : Bool} {n : Option Nat} {t : ModKey} (h : targetKey region id b n = some t) : t.id = id := by
  unfold targetKey at h
  split at h
  · split at h
    · cases h
    · cases h
    · cases h; rfl
  · cases h; rfl

theorem withNumber_numbered (table : List Entry) (region : Nat) (source : ModKey) (name value : Text) :
    ∀ op ∈ withNumber table region source name value, Numbered table source (lettersOf name) op := by
  intro op ho
  unfold withNumber at ho
  simp only at ho
  split at ho
  · next e he =>
    have h1 := List.mem_of_find?_eq_some he
    have h2 := List.find?_some he
    simp only [decide_eq_true_eq] at h2
    split at ho
    · exact (List.not_mem_nil ho).elim
    · next t ht =>
      rw [List.mem_singleton] at ho
      subst ho
      exact ⟨rfl, e, h1, (targetKey_id ht).symm, h2⟩
  · split at ho
    · next e he =>
      have h1 := List.mem_of_find?_eq_some he
      have h2 := List.find?_some he
      split at ho
      · exact (List.not_mem_nil ho).elim
      · next t ht =>
        unfold targetCc at ho
        split at ho
        · exact (List.not_mem_nil ho).elim
        · next d hd =>
          rcases List.mem_cons.mp ho with rfl | ho
          · exact ⟨rfl, e, h1, (targetKey_id ht).symm, h2⟩
          · obtain ⟨n, q, rfl⟩ := genericCc_mem ho
            exact depthKey_apart _ _ _ hd
    · exact (List.not_mem_nil ho).elim

theorem numbered_mono (x : Entry) {table : List Entry} {source : ModKey} {L : Text} {op : Op} (h : Numbered table source L op) :
    Numbered (x :: table) source L op := by
  cases op with
  | cc n t q => exact h
  | depth s t v =>
    obtain ⟨a, e, b, c⟩ := h
    exact ⟨a, e, List.mem_cons_of_mem x b, c⟩
  | depthMod s t v =>
    obtain ⟨a, e, b, c⟩ := h
    exact ⟨a, e, List.mem_cons_of_mem x b, c⟩
  | vel s t v => exact h
  | make s t => exact h

/-- The entry for the frequency of LFOs. -/
def freqEntry : Entry := ⟨"eg&_freq_lfo&".toList, .LFOFrequency, true, false⟩

theorem lfoOwn_apart : ∀ e ∈ lfoOwn, e.2 ∉ paramIds := by decide +kernel

theorem lfoV2_numbered (region : Nat) (name value : Text) : ∀ op ∈ lfoV2 region name value,
    ∃ k ns, (Loader.seen name).2 = (k + 1) :: ns ∧ Numbered lfoTargets ⟨.LFO, some region, k % 256, 0⟩ (lettersOf name) op := by
  intro op ho
  unfold lfoV2 at ho
  split at ho
  · exact (List.not_mem_nil ho).elim
  · exact (List.not_mem_nil ho).elim
  · next k hk =>
    have hk' : ∃ ns, (Loader.seen name).2 = (k + 1) :: ns := by
      cases hl : (Loader.seen name).2 with
      | nil => rw [hl] at hk; cases hk
      | cons a l => rw [hl] at hk; cases hk; exact ⟨l, rfl⟩
    obtain ⟨ns, hns⟩ := hk'
    refine ⟨k, ns, hns, ?_⟩
    split at ho
    · next e he =>
      obtain ⟨n, q, rfl⟩ := genericCc_mem ho
      exact lfoOwn_apart e (List.mem_of_find?_eq_some he)
    · exact withNumber_numbered _ _ _ _ _ op ho

theorem egV2_numbered (region lfos : Nat) (name value : Text) : ∀ op ∈ egV2 region lfos name value,
    ∃ k ns, (Loader.seen name).2 = (k + 1) :: ns ∧
      Numbered (freqEntry :: egTargets) ⟨.Envelope, some region, k % 256, 0⟩ (lettersOf name) op := by
  intro op ho
  unfold egV2 at ho
  simp only at ho
  split at ho
  · exact (List.not_mem_nil ho).elim
  · exact (List.not_mem_nil ho).elim
  · next k hk =>
    have hk' : ∃ ns, (Loader.seen name).2 = (k + 1) :: ns := by
      cases hl : (Loader.seen name).2 with
      | nil => rw [hl] at hk; cases hk
      | cons a l => rw [hl] at hk; cases hk; exact ⟨l, rfl⟩
    obtain ⟨ns, hns⟩ := hk'
    refine ⟨k, ns, hns, ?_⟩
    have hf : ∀ x t, freqLFO region lfos x = some t → t.id = .LFOFrequency := by
      intro x t h
      unfold freqLFO at h
      split at h
      · cases h
      · cases h
      · split at h
        · cases h
        · cases h; rfl
    split at ho
    · next hL =>
      split at ho
      · exact (List.not_mem_nil ho).elim
      · next t ht =>
        rw [List.mem_singleton] at ho
        subst ho
        exact ⟨rfl, freqEntry, List.mem_cons_self, (hf _ _ ht).symm, hL⟩
    · split at ho
      · next hL =>
        split at ho
        · exact (List.not_mem_nil ho).elim
        · next t ht =>
          unfold targetCc at ho
          split at ho
          · exact (List.not_mem_nil ho).elim
          · next d hd =>
            rcases List.mem_cons.mp ho with rfl | ho
            · exact ⟨rfl, freqEntry, List.mem_cons_self, (hf _ _ ht).symm, hL⟩
            · obtain ⟨n, q, rfl⟩ := genericCc_mem ho
              exact depthKey_apart _ _ _ hd
      · exact numbered_mono _ (withNumber_numbered _ _ _ _ _ op ho)

/-- The ways to have an effect. -/
theorem effects_cases (region lfos : Nat) (name value : Text) (op : Op) (ho : op ∈ effects region lfos name value) :
    (∃ e ∈ direct, anyCc e.letters (lettersOf name) = true ∧ ∃ n t q, op = .cc n t q ∧ t.id = e.id) ∨ Apart op ∨
    (∃ k ns, (Loader.seen name).2 = (k + 1) :: ns ∧ Numbered lfoTargets ⟨.LFO, some region, k % 256, 0⟩ (lettersOf name) op) ∨
    (∃ k ns, (Loader.seen name).2 = (k + 1) :: ns ∧
      Numbered (freqEntry :: egTargets) ⟨.Envelope, some region, k % 256, 0⟩ (lettersOf name) op) := by
  unfold effects at ho
  simp only at ho
  split at ho
  · next e he =>
    left
    have h2 := List.find?_some he
    refine ⟨e, List.mem_of_find?_eq_some he, h2, ?_⟩
    split at ho
    · exact (List.not_mem_nil ho).elim
    · next t ht =>
      obtain ⟨n, q, rfl⟩ := genericCc_mem ho
      exact ⟨n, t, q, rfl, targetKey_id ht⟩
  · obtain ⟨a1, a2⟩ := aftertouch_apart region
    split at ho
    · split at ho
      · exact (List.not_mem_nil ho).elim
      · rw [List.mem_singleton] at ho; subst ho; exact .inr (.inl a1)
    · split at ho
      · split at ho
        · exact (List.not_mem_nil ho).elim
        · rw [List.mem_singleton] at ho; subst ho; exact .inr (.inl a2)
      · split at ho
        · next m hm => exact .inr (.inl (classic_apart region m (classics_ok m (List.mem_of_find?_eq_some hm)) name value op ho))
        · split at ho
          · exact .inr (.inr (.inl (lfoV2_numbered region name value op ho)))
          · split at ho
            · exact .inr (.inr (.inr (egV2_numbered region lfos name value op ho)))
            · exact (List.not_mem_nil ho).elim

/-! ### By name -/

theorem lettersOf_cc (p : Parameter) (hp : p.Ok) (w : Category × Text) (hw : w ∈ words) (n : Nat) (hn : n < 65536) :
    lettersOf (ccName p.text w n) = marked p.pieces.1 p.pieces.2 ++ (w.2 ++ ['&']) := by
  unfold lettersOf
  rw [p.text_write, (ccName_facts _ _ (p.plain hp) w hw n hn).1]

theorem lettersOf_mod (s : Modulator) (hs : s.number < 65536) (p : Parameter) (hp : p.Ok) : lettersOf (modName s p) = modLetters s p := by
  unfold lettersOf
  rw [modName_write, seen_write _ _ (modPlain s p hp hs)]
  rfl

theorem lettersOf_mod_cc (s : Modulator) (hs : s.number < 65536) (p : Parameter) (hp : p.Ok) (w : Category × Text) (hw : w ∈ words) (n : Nat)
    (hn : n < 65536) : lettersOf (ccName (modName s p) w n) = modLetters s p ++ (w.2 ++ ['&']) := by
  unfold lettersOf
  rw [modName_write, (ccName_facts _ _ (modPlain s p hp hs) w hw n hn).1]
  rfl

theorem anyCc_words {x L : Text} (h : anyCc x L = true) : ∃ w ∈ words, L = x ++ (w.2 ++ ['&']) := by
  have h' := of_decide_eq_true h
  have k1 : "_oncc&".toList = "_oncc".toList ++ ['&'] := by decide +kernel
  have k2 : "_curvecc&".toList = "_curvecc".toList ++ ['&'] := by decide +kernel
  have k3 : "_stepcc&".toList = "_stepcc".toList ++ ['&'] := by decide +kernel
  have k4 : "_smoothcc&".toList = "_smoothcc".toList ++ ['&'] := by decide +kernel
  rcases h' with h | h | h | h
  · exact ⟨(.onCc, "_oncc".toList), by decide +kernel, by rw [h, k1]⟩
  · exact ⟨(.curveCc, "_curvecc".toList), by decide +kernel, by rw [h, k2]⟩
  · exact ⟨(.stepCc, "_stepcc".toList), by decide +kernel, by rw [h, k3]⟩
  · exact ⟨(.smoothCc, "_smoothcc".toList), by decide +kernel, by rw [h, k4]⟩

theorem direct_of_id (p : Parameter) : ∀ e ∈ direct, e.id = (p.key 0).id → e.letters = marked p.pieces.1 p.pieces.2 := by
  cases p <;> simp only [Parameter.key, Parameter.pieces, marked] <;> decide +kernel

theorem key_id (p : Parameter) (region : Nat) : (p.key region).id = (p.key 0).id := by cases p <;> rfl

/-- **Only these**: an opcode says something of the modulation of a parameter by a controller only if its name is that of the
parameter followed by one of the four words of controllers. -/
theorem controller_opcode_only (region lfos : Nat) (name value : Text) (n : Nat) (p : Parameter) (hp : p.Ok) (q : Param)
    (h : .cc n (p.key region) q ∈ effects region lfos name value) :
    ∃ w ∈ words, lettersOf name = lettersOf (ccName p.text w 1) := by
  rcases effects_cases region lfos name value _ h with ⟨e, he, ha, n', t, q', heq, hid⟩ | hap | ⟨_, _, _, hnum⟩ | ⟨_, _, _, hnum⟩
  · cases heq
    obtain ⟨w, hw, hL⟩ := anyCc_words ha
    refine ⟨w, hw, ?_⟩
    rw [lettersOf_cc p hp w hw 1 (by decide), hL, direct_of_id p e he (by rw [← hid, key_id])]
  · exact absurd (key_mem p region) hap
  · exact absurd (key_mem p region) hnum
  · exact absurd (key_mem p region) hnum

theorem lfo_of_id (p : Parameter) : ∀ e ∈ lfoTargets, e.id = (p.key 0).id → e.letters = modLetters (.lfo 1) p := by
  cases p <;> simp only [Parameter.key, modLetters, modPieces, Parameter.shortPieces, Parameter.pieces, marked, Modulator.word] <;> decide +kernel

theorem eg_of_id (p : Parameter) : ∀ e ∈ freqEntry :: egTargets, e.id = (p.key 0).id → e.letters = modLetters (.eg 1) p := by
  cases p <;> simp only [Parameter.key, modLetters, modPieces, Parameter.shortPieces, Parameter.pieces, marked, Modulator.word] <;> decide +kernel

theorem modLetters_number (s : Modulator) (p : Parameter) :
    modLetters s p = (match s with | .lfo _ => modLetters (.lfo 1) p | .eg _ => modLetters (.eg 1) p) := by
  cases s <;> rfl

/-- The names of the opcodes of the modulation of a parameter by a modulator. -/
def Names (s : Modulator) (p : Parameter) (name : Text) : Prop :=
  lettersOf name = lettersOf (modName s p) ∨ ∃ w ∈ words, lettersOf name = lettersOf (ccName (modName s p) w 1)

theorem numbered_names (s : Modulator) (hs : s.number < 65536) (p : Parameter) (hp : p.Ok) (region : Nat) (table : List Entry) (source : ModKey)
    (name : Text) (ht : ∀ e ∈ table, e.id = (p.key 0).id → e.letters = modLetters s p) (op : Op) (hl : links (s.key region) (p.key region) op = true)
    (h : Numbered table source (lettersOf name) op) : Names s p name := by
  cases op with
  | cc n t q => cases hl
  | vel a t v => exact h.elim
  | make a t => exact h.elim
  | depth a t v =>
    obtain ⟨rfl, rfl⟩ := of_decide_eq_true hl
    obtain ⟨_, e, he, hid, hL⟩ := h
    left
    rw [lettersOf_mod s hs p hp, hL, ht e he (by rw [hid, key_id])]
  | depthMod a t v =>
    obtain ⟨rfl, rfl⟩ := of_decide_eq_true hl
    obtain ⟨_, e, he, hid, hL⟩ := h
    obtain ⟨w, hw, hL⟩ := anyCc_words hL
    right
    exact ⟨w, hw, by rw [lettersOf_mod_cc s hs p hp w hw 1 (by decide), hL, ht e he (by rw [hid, key_id])]⟩

theorem numbered_source {table : List Entry} {source : ModKey} {L : Text} {op : Op} {s t : ModKey} (hl : links s t op = true)
    (h : Numbered table source L op) : s = source := by
  cases op with
  | cc n t q => cases hl
  | vel a t v => exact h.elim
  | make a t => exact h.elim
  | depth a t v => obtain ⟨rfl, rfl⟩ := of_decide_eq_true hl; exact h.1
  | depthMod a t v => obtain ⟨rfl, rfl⟩ := of_decide_eq_true hl; exact h.1

/-- **Only these**: an opcode says something of the modulation of a parameter by an LFO or envelope with a number only if its name
is that of the modulator followed by the parameter, with or without one of the four words of controllers. -/
theorem modulator_opcode_only (region lfos : Nat) (name value : Text) (s : Modulator) (hs : s.number < 65536) (p : Parameter) (hp : p.Ok) (op : Op)
    (h : op ∈ effects region lfos name value) (hl : links (s.key region) (p.key region) op = true) : Names s p name := by
  rcases effects_cases region lfos name value _ h with ⟨e, he, ha, n', t, q', rfl, hid⟩ | hap | ⟨k, _, _, hnum⟩ | ⟨k, _, _, hnum⟩
  · cases hl
  · have hsrc : (s.key region).id = .LFO ∨ (s.key region).id = .Envelope := by cases s <;> simp [Modulator.key]
    cases op with
    | cc n t q => cases hl
    | depth a t v | depthMod a t v | vel a t v =>
      obtain ⟨rfl, rfl⟩ := of_decide_eq_true hl
      rcases hsrc with h | h
      · exact absurd h hap.1
      · exact absurd h hap.2
    | make a t =>
      obtain ⟨rfl, rfl⟩ := of_decide_eq_true hl
      rcases hsrc with h | h
      · exact absurd h hap.1
      · exact absurd h hap.2
  · have := numbered_source hl hnum
    cases s with
    | eg j => cases this
    | lfo j => exact numbered_names (.lfo j) hs p hp region _ _ name (lfo_of_id p) op hl hnum
  · have := numbered_source hl hnum
    cases s with
    | lfo j => cases this
    | eg j => exact numbered_names (.eg j) hs p hp region _ _ name (eg_of_id p) op hl hnum

/-! ### The region -/

theorem allEffects_append (region : Nat) : ∀ (a b : List Loader.Op) (lfos : Nat),
    allEffects region lfos (a ++ b) = allEffects region lfos a ++ allEffects region (a.foldl (fun l o => lfosAfter l o.name) lfos) b
  | [], b, lfos => rfl
  | o :: a, b, lfos => by
    rw [List.cons_append, allEffects, allEffects, allEffects_append region a b]
    simp

theorem allEffects_none {A : Type} (f : Op → Option A) (region : Nat) : ∀ (os : List Loader.Op) (lfos : Nat),
    (∀ o ∈ os, ∀ l, ∀ op ∈ effects region l o.name o.value, f op = none) → ∀ op ∈ allEffects region lfos os, f op = none
  | [], _, _, op, ho => (List.not_mem_nil ho).elim
  | o :: os, lfos, h, op, ho => by
    rw [allEffects] at ho
    rcases List.mem_append.mp ho with ho | ho
    · exact h o List.mem_cons_self _ op ho
    · exact allEffects_none f region os _ (fun x hx => h x (List.mem_cons_of_mem _ hx)) op ho

theorem lastOf_tail {A : Type} (f : Op → Option A) (a b : List Op) (h : ∀ op ∈ b, f op = none) : lastOf f (a ++ b) = lastOf f a := by
  unfold lastOf
  rw [List.filterMap_append, List.filterMap_eq_nil_iff.mpr h, List.append_nil]

theorem lastOf_mid {A : Type} (f : Op → Option A) (a b : List Op) (x y : Op) (v : A) (hx : f x = some v) (hb : ∀ op ∈ b, f op = none)
    (hy : f y = none) : lastOf f (a ++ ([x] ++ b) ++ [y]) = some v := by
  rw [Connections.lastOf_snoc, hy, ← List.append_assoc, lastOf_tail f _ b hb, Connections.lastOf_snoc, hx]

/-- **The depth of a controller**: when `<parameter>_onccN` is given, N below 512, and no later opcode of the region is about the
modulation of this parameter by controllers, the region has one connection from the controller N to the parameter, and its depth is
the value given. -/
theorem region_controller_depth (region : Nat) (before after : List Loader.Op) (p : Parameter) (hp : p.Ok) (n : Nat) (hn : n < 512) (value : Text)
    (hlater : ∀ o ∈ after, ∀ w ∈ words, lettersOf o.name ≠ lettersOf (ccName p.text w 1)) :
    ∃ c : Connections.Connection,
      (Connections.parsed ⟨region, allEffects region 0 (before ++ ⟨ccName p.text (.onCc, "_oncc".toList) n, value⟩ :: after), none, fun _ => false⟩).filter
        (Connections.fromCC n (p.key region)) = [c] ∧ c.depth = amount p.percent value := by
  unfold Connections.parsed
  simp only
  rw [Connections.controller_connections region n (p.key region) hn]
  have hw : ((Category.onCc, "_oncc".toList) : Category × Text) ∈ words := by decide +kernel
  rw [allEffects_append, allEffects, controller_opcode region _ p hp _ hw n (by omega) value]
  generalize hA : allEffects region 0 before = A
  generalize hl : lfosAfter (before.foldl (fun l o => lfosAfter l o.name) 0) _ = l'
  have hB : ∀ op ∈ allEffects region l' after, onGiven n (p.key region) op = none := by
    refine allEffects_none _ region after l' (fun o ho l op hop => ?_)
    cases op with
    | cc c t q =>
      cases q with
      | on v =>
        unfold onGiven
        by_cases hc : c = n ∧ t = p.key region
        · obtain ⟨rfl, rfl⟩ := hc
          obtain ⟨w, hw, hL⟩ := controller_opcode_only region l o.name o.value c p hp _ hop
          exact absurd hL (hlater o ho w hw)
        · simp only [hc, if_false]
      | curve v | step v | smooth v => rfl
    | depth a t v | depthMod a t v | vel a t v => rfl
    | make a t => rfl
  generalize allEffects region l' after = B at hB
  refine ⟨_, by unfold ccSaid; rw [if_pos]; rw [List.any_eq_true]; exact ⟨.cc n (p.key region) (said p.percent .onCc value), by simp, by simp [names]⟩, ?_⟩
  simp only
  rw [lastOf_mid _ _ _ _ _ (amount p.percent value) (by simp [onGiven, said]) hB rfl]
  rfl

/-- **The depth of an LFO or envelope**: when `lfoK_<parameter>` or `egK_<parameter>` is given, and no later opcode of the region has a
name with the same letters, the region has one connection from the modulator to the parameter, and its depth is the value given. -/
theorem region_modulator_depth (region : Nat) (before after : List Loader.Op) (s : Modulator) (h1 : 1 ≤ s.number) (h2 : s.number ≤ 256)
    (p : Parameter) (hp : p.Ok) (hm : p.modulable = true) (value : Text) (hlater : ∀ o ∈ after, ¬ Names s p o.name) :
    ∃ c : Connections.Connection,
      (Connections.parsed ⟨region, allEffects region 0 (before ++ ⟨modName s p, value⟩ :: after), none, fun _ => false⟩).filter
        (Connections.fromOther (s.key region) (p.key region)) = [c] ∧ c.depth = amount p.percent value := by
  unfold Connections.parsed
  simp only
  rw [Connections.modulator_connections region (s.key region) (p.key region)]
  rw [allEffects_append, allEffects, modulator_opcode region _ s h1 h2 p hp hm value]
  generalize hA : allEffects region 0 before = A
  generalize hl : lfosAfter (before.foldl (fun l o => lfosAfter l o.name) 0) _ = l'
  have hB : ∀ op ∈ allEffects region l' after, depthGiven (s.key region) (p.key region) op = none := by
    refine allEffects_none _ region after l' (fun o ho l op hop => ?_)
    cases op with
    | depth a t v =>
      unfold depthGiven
      by_cases hc : a = s.key region ∧ t = p.key region
      · exact absurd (modulator_opcode_only region l o.name o.value s (by omega) p hp _ hop (by simp [links, hc])) (hlater o ho)
      · simp only [hc, if_false]
    | cc c t q | depthMod a t v | vel a t v => rfl
    | make a t => rfl
  generalize allEffects region l' after = B at hB
  refine ⟨_, by unfold linkSaid; rw [if_pos]; rw [List.any_eq_true]; exact ⟨.depth (s.key region) (p.key region) (amount p.percent value), by simp, by simp [links]⟩, ?_⟩
  simp only
  rw [lastOf_mid _ _ _ _ _ (amount p.percent value) (by simp [depthGiven]) hB (by cases s <;> simp [Connections.envelope, depthGiven, Modulator.key])]
  rfl

/-! ### Examples -/

/-- `controller_opcode`: half the width of the stereo field when the controller 7 is at its end. -/
example : effects 3 0 "pan_oncc7".toList "50".toList = [.cc 7 ⟨.Pan, some 3, 0, 0⟩ (.on (1 / 2))] ∧
    "pan_oncc7".toList = ccName Parameter.pan.text (.onCc, "_oncc".toList) 7 ∧ amount true "50".toList = 1 / 2 := by decide +kernel

/-- `modulator_opcode` and `modulator_cc_opcode`. -/
example : effects 3 0 "lfo2_eq3gain".toList "-6.5dB".toList = [.depth ⟨.LFO, some 3, 1, 0⟩ ⟨.EqGain, some 3, 2, 0⟩ (-13 / 2)] ∧
    effects 3 0 "eg1_cutoff2_curvecc20".toList "4".toList =
      [.depthMod ⟨.Envelope, some 3, 0, 0⟩ ⟨.FilCutoff, some 3, 1, 0⟩ ⟨.EGFilCutoffDepth, some 3, 1, 0⟩,
       .cc 20 ⟨.EGFilCutoffDepth, some 3, 1, 0⟩ (.curve 4)] ∧
    "lfo2_eq3gain".toList = modName (.lfo 2) (.eqGain 3) ∧
    "eg1_cutoff2_curvecc20".toList = ccName (modName (.eg 1) (.cutoff 2)) (.curveCc, "_curvecc".toList) 20 := by decide +kernel

/-- The opcodes of the first version. -/
example : effects 3 0 "fillfo_depthpolyaft".toList "1200".toList =
      [.depthMod ⟨.FilLFO, some 3, 0, 0⟩ ⟨.FilCutoff, some 3, 0, 0⟩ ⟨.FilLFODepth, some 3, 0, 0⟩,
       .depth ⟨.PolyAftertouch, some 3, 0, 0⟩ ⟨.FilLFODepth, some 3, 0, 0⟩ 1200, .make ⟨.FilLFO, some 3, 0, 0⟩ ⟨.FilCutoff, some 3, 0, 0⟩] ∧
    effects 3 0 "pitcheg_veltodepth".toList "100".toList =
      [.vel ⟨.PitchEG, some 3, 0, 0⟩ ⟨.Pitch, some 3, 0, 0⟩ 100, .make ⟨.PitchEG, some 3, 0, 0⟩ ⟨.Pitch, some 3, 0, 0⟩] ∧
    effects 3 0 "cutoff2_chanaft".toList "7".toList = [.depth ⟨.ChannelAftertouch, none, 0, 0⟩ ⟨.FilCutoff, some 3, 1, 0⟩ 7] ∧
    effects 3 0 "lfo4_phase_smoothcc9".toList "12".toList = [.cc 9 ⟨.LFOPhase, some 3, 3, 0⟩ (.smooth 12)] := by decide +kernel

/-- **Numbers over 256 violated**: `cutoff257_oncc1` modulates the cutoff of the first filter. -/
theorem large_number_violated : effects 0 0 "cutoff257_oncc1".toList "100".toList = [.cc 1 ((Parameter.cutoff 1).key 0) (.on 100)] := by
  decide +kernel

/-- **Order of opcodes violated**: `eg1_freq_lfo3` is ignored when it comes before the opcodes of the third LFO, not when it comes
after them. -/
theorem eg_freq_order_violated :
    allEffects 0 0 [⟨egFreqName 1 3, "2".toList⟩, ⟨"lfo3_freq".toList, "5".toList⟩] = [] ∧
    allEffects 0 0 [⟨"lfo3_freq".toList, "5".toList⟩, ⟨egFreqName 1 3, "2".toList⟩] =
      [.depth ((Modulator.eg 1).key 0) (Setting.freq.key 0 3) 2] := by
  decide +kernel

/-- `region_controller_depth` and `region_modulator_depth`: the hypotheses hold with opcodes before and after. -/
example : ∃ c : Connections.Connection,
    (Connections.parsed ⟨0, allEffects 0 0 [⟨"volume_oncc1".toList, "3".toList⟩, ⟨"volume_oncc1".toList, "-12".toList⟩, ⟨"volume".toList, "1".toList⟩,
      ⟨"pan_oncc1".toList, "4".toList⟩], none, fun _ => false⟩).filter (Connections.fromCC 1 (Parameter.volume.key 0)) = [c] ∧ c.depth = -12 := by
  have h := region_controller_depth 0 [⟨"volume_oncc1".toList, "3".toList⟩] [⟨"volume".toList, "1".toList⟩, ⟨"pan_oncc1".toList, "4".toList⟩]
    .volume (fun n hn => by cases hn) 1 (by decide) "-12".toList (by decide +kernel)
  have e : ccName Parameter.volume.text (.onCc, "_oncc".toList) 1 = "volume_oncc1".toList := by decide +kernel
  have v : amount Parameter.volume.percent "-12".toList = -12 := by decide +kernel
  rw [e, v] at h
  exact h

end Verif.Modulations
