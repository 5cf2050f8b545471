/-
Keys of the modulation matrix: the targets which control the depth of a modulator (C38), and the
registration of sources, targets and connections (C60).
-/
import Verif.ModMatrix.Lemmas

namespace Verif.ModMatrix

/-! ## Depth targets -/

/-- src/sfizz/modulations/ModId.h:15-96. -/
inductive ModId where
  | Controller | Envelope | LFO | AmpLFO | PitchLFO | FilLFO | AmpEG | PitchEG | FilEG
  | ChannelAftertouch | PolyAftertouch | PerVoiceController
  | MasterAmplitude | Amplitude | Pan | Width | Position | Pitch | Volume
  | FilGain | FilCutoff | FilResonance | EqGain | EqFrequency | EqBandwidth
  | OscillatorDetune | OscillatorModDepth
  | PitchEGDepth | FilEGDepth | AmpLFODepth | AmpLFOFrequency | PitchLFODepth | PitchLFOFrequency
  | FilLFODepth | FilLFOFrequency | LFOFrequency | LFOBeats | LFOPhase
  | LFOAmplitudeDepth | LFOPanDepth | LFOWidthDepth | LFOPositionDepth | LFOPitchDepth | LFOVolumeDepth
  | LFOFilCutoffDepth | LFOFilResonanceDepth | LFOFilGainDepth
  | LFOEqGainDepth | LFOEqFrequencyDepth | LFOEqBandwidthDepth
  | EGAmplitudeDepth | EGPanDepth | EGWidthDepth | EGPositionDepth | EGPitchDepth | EGVolumeDepth
  | EGFilCutoffDepth | EGFilResonanceDepth | EGFilGainDepth
  | EGEqGainDepth | EGEqFrequencyDepth | EGEqBandwidthDepth | EGLFOFreqDepth
deriving DecidableEq, Repr

/-- src/sfizz/modulations/ModKey.h:27-120, for the keys other than controllers: the kind, the region and
the numbers `N` and `X` (of the LFO, envelope, filter or equalizer). -/
structure ModKey where
  id : ModId
  region : Option Nat
  N : Nat := 0
  X : Nat := 0
deriving DecidableEq, Repr

/-- src/sfizz/modulations/ModKey.cpp:231-351. -/
def getSourceDepthKey (source target : ModKey) : Option ModKey :=
  let region := source.region
  match source.id, target.id with
  | .AmpLFO, .Volume => some ⟨.AmpLFODepth, region, 0, 0⟩
  | .PitchLFO, .Pitch => some ⟨.PitchLFODepth, region, 0, 0⟩
  | .FilLFO, .FilCutoff => some ⟨.FilLFODepth, region, 0, 0⟩
  | .PitchEG, .Pitch => some ⟨.PitchEGDepth, region, 0, 0⟩
  | .FilEG, .FilCutoff => some ⟨.FilEGDepth, region, 0, 0⟩
  | .LFO, .Amplitude => some ⟨.LFOAmplitudeDepth, region, target.N, 0⟩
  | .LFO, .Pan => some ⟨.LFOPanDepth, region, target.N, 0⟩
  | .LFO, .Width => some ⟨.LFOWidthDepth, region, target.N, 0⟩
  | .LFO, .Position => some ⟨.LFOPositionDepth, region, target.N, 0⟩
  | .LFO, .Pitch => some ⟨.LFOPitchDepth, region, target.N, 0⟩
  | .LFO, .Volume => some ⟨.LFOVolumeDepth, region, target.N, 0⟩
  | .LFO, .FilCutoff => some ⟨.LFOFilCutoffDepth, region, target.N, target.X⟩
  | .LFO, .FilResonance => some ⟨.LFOFilResonanceDepth, region, target.N, target.X⟩
  | .LFO, .FilGain => some ⟨.LFOFilGainDepth, region, target.N, target.X⟩
  | .LFO, .EqGain => some ⟨.LFOEqGainDepth, region, target.N, target.X⟩
  | .LFO, .EqFrequency => some ⟨.LFOEqFrequencyDepth, region, target.N, target.X⟩
  | .LFO, .EqBandwidth => some ⟨.LFOEqBandwidthDepth, region, target.N, target.X⟩
  | .Envelope, .Amplitude => some ⟨.EGAmplitudeDepth, region, target.N, 0⟩
  | .Envelope, .Pan => some ⟨.EGPanDepth, region, target.N, 0⟩
  | .Envelope, .Width => some ⟨.EGWidthDepth, region, target.N, 0⟩
  | .Envelope, .Position => some ⟨.EGPositionDepth, region, target.N, 0⟩
  | .Envelope, .Pitch => some ⟨.EGPitchDepth, region, target.N, 0⟩
  | .Envelope, .Volume => some ⟨.EGVolumeDepth, region, target.N, 0⟩
  | .Envelope, .FilCutoff => some ⟨.EGFilCutoffDepth, region, target.N, target.X⟩
  | .Envelope, .FilResonance => some ⟨.EGFilResonanceDepth, region, target.N, target.X⟩
  | .Envelope, .FilGain => some ⟨.EGFilGainDepth, region, target.N, target.X⟩
  | .Envelope, .EqGain => some ⟨.EGEqGainDepth, region, target.N, target.X⟩
  | .Envelope, .EqFrequency => some ⟨.EGEqFrequencyDepth, region, target.N, target.X⟩
  | .Envelope, .EqBandwidth => some ⟨.EGEqBandwidthDepth, region, target.N, target.X⟩
  | .Envelope, .LFOFrequency => some ⟨.EGLFOFreqDepth, region, target.N, target.X⟩
  | _, _ => none

/-- Which modulator and which target a depth target belongs to (ModId.h:57-92, by its name). -/
def owner : ModId → Option (ModId × ModId)
  | .AmpLFODepth => some (.AmpLFO, .Volume)
  | .PitchLFODepth => some (.PitchLFO, .Pitch)
  | .FilLFODepth => some (.FilLFO, .FilCutoff)
  | .PitchEGDepth => some (.PitchEG, .Pitch)
  | .FilEGDepth => some (.FilEG, .FilCutoff)
  | .LFOAmplitudeDepth => some (.LFO, .Amplitude)
  | .LFOPanDepth => some (.LFO, .Pan)
  | .LFOWidthDepth => some (.LFO, .Width)
  | .LFOPositionDepth => some (.LFO, .Position)
  | .LFOPitchDepth => some (.LFO, .Pitch)
  | .LFOVolumeDepth => some (.LFO, .Volume)
  | .LFOFilCutoffDepth => some (.LFO, .FilCutoff)
  | .LFOFilResonanceDepth => some (.LFO, .FilResonance)
  | .LFOFilGainDepth => some (.LFO, .FilGain)
  | .LFOEqGainDepth => some (.LFO, .EqGain)
  | .LFOEqFrequencyDepth => some (.LFO, .EqFrequency)
  | .LFOEqBandwidthDepth => some (.LFO, .EqBandwidth)
  | .EGAmplitudeDepth => some (.Envelope, .Amplitude)
  | .EGPanDepth => some (.Envelope, .Pan)
  | .EGWidthDepth => some (.Envelope, .Width)
  | .EGPositionDepth => some (.Envelope, .Position)
  | .EGPitchDepth => some (.Envelope, .Pitch)
  | .EGVolumeDepth => some (.Envelope, .Volume)
  | .EGFilCutoffDepth => some (.Envelope, .FilCutoff)
  | .EGFilResonanceDepth => some (.Envelope, .FilResonance)
  | .EGFilGainDepth => some (.Envelope, .FilGain)
  | .EGEqGainDepth => some (.Envelope, .EqGain)
  | .EGEqFrequencyDepth => some (.Envelope, .EqFrequency)
  | .EGEqBandwidthDepth => some (.Envelope, .EqBandwidth)
  | .EGLFOFreqDepth => some (.Envelope, .LFOFrequency)
  | _ => none

theorem depthKey_owner (s t k : ModKey) (h : getSourceDepthKey s t = some k) :
    owner k.id = some (s.id, t.id) ∧ k.region = s.region ∧
    ((s.id = .LFO ∨ s.id = .Envelope) → k.N = t.N) := by
  obtain ⟨si, sr, sn, sx⟩ := s
  obtain ⟨ti, tr, tn, tx⟩ := t
  simp only [getSourceDepthKey] at h
  split at h <;> simp_all <;> subst h <;> simp [owner]

/-- C38, the part which holds: the depth controls of two connections are different targets whenever the
modulators are of different kinds or belong to different regions, or the modulated parameters are of
different kinds, or (for LFOs and flexible envelopes) belong to different filters, equalizers or LFOs.
Missing: two modulators of the same kind on the same parameter of one region
(`depth_independence_violated`). -/
theorem depth_keys_differ_partial (s₁ t₁ s₂ t₂ k₁ k₂ : ModKey)
    (h₁ : getSourceDepthKey s₁ t₁ = some k₁) (h₂ : getSourceDepthKey s₂ t₂ = some k₂)
    (hd : s₁.id ≠ s₂.id ∨ s₁.region ≠ s₂.region ∨ t₁.id ≠ t₂.id ∨
      (s₁.id = .LFO ∨ s₁.id = .Envelope) ∧ t₁.N ≠ t₂.N) : k₁ ≠ k₂ := by
  rintro rfl
  obtain ⟨a₁, b₁, c₁⟩ := depthKey_owner s₁ t₁ k₁ h₁
  obtain ⟨a₂, b₂, c₂⟩ := depthKey_owner s₂ t₂ k₁ h₂
  rw [a₁] at a₂
  simp only [Option.some.injEq, Prod.mk.injEq] at a₂
  rcases hd with h | h | h | ⟨h, hn⟩
  · exact h a₂.1
  · exact h (b₁.symm.trans b₂)
  · exact h a₂.2
  · exact hn ((c₁ h).symm.trans (c₂ (a₂.1 ▸ h)))

example : getSourceDepthKey ⟨.LFO, some 3, 1, 0⟩ ⟨.FilCutoff, some 3, 0, 0⟩ =
      some ⟨.LFOFilCutoffDepth, some 3, 0, 0⟩ ∧
    getSourceDepthKey ⟨.LFO, some 3, 1, 0⟩ ⟨.FilCutoff, some 3, 1, 0⟩ =
      some ⟨.LFOFilCutoffDepth, some 3, 1, 0⟩ := by decide

/-- C38 fails: the first and the second LFO of a region acting on its pitch (`lfo1_pitch_oncc1`,
`lfo2_pitch_oncc2`) have the same depth control, because the key carries the number of the target
instead of the number of the LFO; and likewise for every two LFOs, and every parameter they can act
on. -/
theorem depth_independence_violated :
    (∃ s₁ s₂ t : ModKey, s₁ ≠ s₂ ∧ ∃ k, getSourceDepthKey s₁ t = some k ∧ getSourceDepthKey s₂ t = some k) ∧
    ∀ (r : Option Nat) (n₁ n₂ : Nat) (t : ModKey),
      getSourceDepthKey ⟨.LFO, r, n₁, 0⟩ t = getSourceDepthKey ⟨.LFO, r, n₂, 0⟩ t :=
  ⟨⟨⟨.LFO, some 0, 0, 0⟩, ⟨.LFO, some 0, 1, 0⟩, ⟨.Pitch, some 0, 0, 0⟩, by decide,
    ⟨.LFOPitchDepth, some 0, 0, 0⟩, by decide, by decide⟩, fun _ _ _ _ => rfl⟩

/-! ## Registration -/

section
variable {K : Type} [DecidableEq K]

/-- The matrix while the instrument is loaded: sources and targets with their keys.  What the code reads
off a key (its region and flags) is given by the functions `srcOf` and `tgtOf` below. -/
structure Builder (K : Type) where
  srcs : List (K × Source)
  tgts : List (K × Target)

/-- The hash maps `sourceIndex_` and `targetIndex_`: the index of a key. -/
def indexOf {A : Type} (l : List (K × A)) (k : K) : Option Nat := l.findIdx? (fun p => p.1 == k)

/-- src/sfizz/modulations/ModMatrix.cpp:125-152. -/
def registerSource (srcOf : K → Source) (b : Builder K) (k : K) : Nat × Builder K :=
  match indexOf b.srcs k with
  | some i => (i, b)
  | none => (b.srcs.length, { b with srcs := b.srcs ++ [(k, srcOf k)] })

/-- src/sfizz/modulations/ModMatrix.cpp:154-175. -/
def registerTarget (tgtOf : K → Target) (b : Builder K) (k : K) : Nat × Builder K :=
  match indexOf b.tgts k with
  | some i => (i, b)
  | none => (b.tgts.length, { b with tgts := b.tgts ++ [(k, { tgtOf k with conns := [] })] })

/-- The depth target of a connection written again (ModMatrix.cpp:220-221). -/
def keepDepth (dm old : Option Nat) : Option Nat :=
  match dm with
  | some d => some d
  | none => old

/-- The connection of a source in the map of a target, updated or added
(src/sfizz/modulations/ModMatrix.cpp:216-223).  Without a depth key, the previous identifier of the
depth target is kept. -/
def setConn (source : Nat) (depth : ℚ) (dm : Option Nat) (vel : ℚ) : List Conn → List Conn
  | [] => [⟨source, depth, dm, vel⟩]
  | c :: cs =>
    if c.source = source then
      ⟨source, depth, keepDepth dm c.depthMod, vel⟩ :: cs
    else c :: setConn source depth dm vel cs

/-- The optional registration of the depth target (src/sfizz/modulations/ModMatrix.cpp:208-213). -/
def registerDepth (tgtOf : K → Target) (b : Builder K) : Option K → Option Nat × Builder K
  | none => (none, b)
  | some k => (some (registerTarget tgtOf b k).1, (registerTarget tgtOf b k).2)

/-- Updating the connections of one target. -/
def updConns (t : Nat) (f : List Conn → List Conn) (l : List (K × Target)) : List (K × Target) :=
  l.modify t (fun p => (p.1, { p.2 with conns := f p.2.conns }))

/-- src/sfizz/modulations/ModMatrix.cpp:199-226. -/
def connect (tgtOf : K → Target) (b : Builder K) (s t : Nat) (depth : ℚ) (dk : Option K) (vel : ℚ) :
    Bool × Builder K :=
  if b.srcs.length ≤ s ∨ b.tgts.length ≤ t then (false, b)
  else
    let r := registerDepth tgtOf b dk
    (true, { r.2 with tgts := updConns t (setConn s depth r.1 vel) r.2.tgts })

/-- The calls made while an instrument is loaded (src/sfizz/Synth.cpp:2003-2081). -/
inductive Op (K : Type) where
  | source (k : K)
  | target (k : K)
  | connect (s t : Nat) (depth : ℚ) (dk : Option K) (vel : ℚ)

def step (srcOf : K → Source) (tgtOf : K → Target) (b : Builder K) : Op K → Builder K
  | .source k => (registerSource srcOf b k).2
  | .target k => (registerTarget tgtOf b k).2
  | .connect s t d dk v => (connect tgtOf b s t d dk v).2

def build (srcOf : K → Source) (tgtOf : K → Target) (ops : List (Op K)) : Builder K :=
  ops.foldl (step srcOf tgtOf) ⟨[], []⟩

/-- The graph evaluated afterwards. -/
def Builder.graph (b : Builder K) : Graph := ⟨b.srcs.map (·.2), b.tgts.map (·.2)⟩

/-- What holds of every matrix which was built. -/
structure Built (b : Builder K) : Prop where
  srcKeys : (b.srcs.map (·.1)).Nodup
  tgtKeys : (b.tgts.map (·.1)).Nodup
  conns : ∀ p ∈ b.tgts, ∀ c ∈ p.2.conns,
    c.source < b.srcs.length ∧ ∀ d, c.depthMod = some d → d < b.tgts.length
  once : ∀ p ∈ b.tgts, (p.2.conns.map Conn.source).Nodup

theorem indexOf_none {A : Type} {l : List (K × A)} {k : K} (h : indexOf l k = none) :
    k ∉ l.map (·.1) := by
  intro hm
  obtain ⟨p, hp, rfl⟩ := List.mem_map.1 hm
  simpa using List.findIdx?_eq_none_iff.1 h p hp

theorem registerTarget_built (tgtOf : K → Target) (b : Builder K) (k : K) (hb : Built b) :
    Built (registerTarget tgtOf b k).2 ∧ (registerTarget tgtOf b k).2.srcs = b.srcs ∧
      b.tgts.length ≤ (registerTarget tgtOf b k).2.tgts.length ∧
      (registerTarget tgtOf b k).1 < (registerTarget tgtOf b k).2.tgts.length := by
  unfold registerTarget
  cases h : indexOf b.tgts k with
  | some i =>
    refine ⟨hb, rfl, le_refl _, ?_⟩
    obtain ⟨hlt, _⟩ := List.findIdx?_eq_some_iff_getElem.1 h
    exact hlt
  | none =>
    refine ⟨⟨hb.srcKeys, ?_, ?_, ?_⟩, rfl, by simp, by simp⟩
    · simp only [List.map_append, List.map_cons, List.map_nil]
      rw [List.nodup_append]
      refine ⟨hb.tgtKeys, by simp, ?_⟩
      intro a ha c hc
      simp only [List.mem_singleton] at hc
      subst hc
      rintro rfl
      exact indexOf_none h ha
    · intro p hp c hc
      simp only [List.length_append, List.length_singleton]
      rcases List.mem_append.1 hp with hp | hp
      · refine ⟨(hb.conns p hp c hc).1, fun d hd => ?_⟩
        have := (hb.conns p hp c hc).2 d hd
        omega
      · simp only [List.mem_singleton] at hp
        subst hp
        simp at hc
    · intro p hp
      rcases List.mem_append.1 hp with hp | hp
      · exact hb.once p hp
      · simp only [List.mem_singleton] at hp
        subst hp
        simp

theorem setConn_sources (s : Nat) (d : ℚ) (dm : Option Nat) (v : ℚ) : ∀ (cs : List Conn),
    (setConn s d dm v cs).map Conn.source =
      if s ∈ cs.map Conn.source then cs.map Conn.source else cs.map Conn.source ++ [s]
  | [] => by simp [setConn]
  | c :: cs => by
    rw [setConn]
    by_cases h : c.source = s
    · simp [h]
    · rw [if_neg h, List.map_cons, setConn_sources s d dm v cs]
      have : ¬ s = c.source := fun e => h e.symm
      by_cases hm : s ∈ cs.map Conn.source
      · simp only [hm, if_true, List.map_cons, List.mem_cons, or_true]
      · simp only [hm, if_false, List.map_cons, List.mem_cons, this, or_false, List.cons_append]

theorem setConn_mem (s : Nat) (d : ℚ) (dm : Option Nat) (v : ℚ) : ∀ (cs : List Conn) (c : Conn),
    c ∈ setConn s d dm v cs → c ∈ cs ∨ (c.source = s ∧ (c.depthMod = dm ∨ ∃ c' ∈ cs, c.depthMod = c'.depthMod))
  | [], c, h => by
    simp only [setConn, List.mem_singleton] at h
    subst h
    exact Or.inr ⟨rfl, Or.inl rfl⟩
  | x :: cs, c, h => by
    rw [setConn] at h
    by_cases hx : x.source = s
    · rw [if_pos hx] at h
      rcases List.mem_cons.1 h with rfl | h
      · refine Or.inr ⟨rfl, ?_⟩
        cases dm with
        | some e => exact Or.inl rfl
        | none => exact Or.inr ⟨x, by simp, rfl⟩
      · exact Or.inl (by simp [h])
    · rw [if_neg hx] at h
      rcases List.mem_cons.1 h with rfl | h
      · exact Or.inl (by simp)
      · rcases setConn_mem s d dm v cs c h with h | ⟨h₁, h₂ | ⟨c', h₂, h₃⟩⟩
        · exact Or.inl (by simp [h])
        · exact Or.inr ⟨h₁, Or.inl h₂⟩
        · exact Or.inr ⟨h₁, Or.inr ⟨c', by simp [h₂], h₃⟩⟩

omit [DecidableEq K] in
theorem updConns_mem {t : Nat} {f : List Conn → List Conn} {l : List (K × Target)} {p : K × Target}
    (h : p ∈ updConns t f l) : p ∈ l ∨ ∃ q ∈ l, p = (q.1, { q.2 with conns := f q.2.conns }) := by
  unfold updConns at h
  obtain ⟨i, hi, rfl⟩ := List.mem_iff_getElem.1 h
  rw [List.getElem_modify]
  have hi' : i < l.length := by simpa using hi
  by_cases ht : t = i
  · right
    exact ⟨l[i], List.getElem_mem _, by simp [ht]⟩
  · left
    simp [ht]

omit [DecidableEq K] in
theorem updConns_keys (t : Nat) (f : List Conn → List Conn) (l : List (K × Target)) :
    (updConns t f l).map (·.1) = l.map (·.1) := by
  apply List.ext_getElem
  · simp [updConns]
  · intro i h₁ h₂
    simp only [updConns, List.getElem_map, List.getElem_modify]
    split <;> rfl

theorem step_built (srcOf : K → Source) (tgtOf : K → Target) (b : Builder K) (op : Op K) (hb : Built b) :
    Built (step srcOf tgtOf b op) := by
  cases op with
  | source k =>
    simp only [step, registerSource]
    cases h : indexOf b.srcs k with
    | some i => exact hb
    | none =>
      refine ⟨?_, hb.tgtKeys, ?_, hb.once⟩
      · simp only [List.map_append, List.map_cons, List.map_nil]
        rw [List.nodup_append]
        refine ⟨hb.srcKeys, by simp, ?_⟩
        intro a ha c hc
        simp only [List.mem_singleton] at hc
        subst hc
        rintro rfl
        exact indexOf_none h ha
      · intro p hp c hc
        refine ⟨?_, (hb.conns p hp c hc).2⟩
        have := (hb.conns p hp c hc).1
        simp only [List.length_append, List.length_singleton]
        omega
  | target k => exact (registerTarget_built tgtOf b k hb).1
  | connect s t d dk v =>
    simp only [step, connect]
    split
    · exact hb
    · next hlt =>
      push Not at hlt
      have hr : Built (registerDepth tgtOf b dk).2 ∧ (registerDepth tgtOf b dk).2.srcs = b.srcs ∧
          ∀ e, (registerDepth tgtOf b dk).1 = some e → e < (registerDepth tgtOf b dk).2.tgts.length := by
        cases dk with
        | none => exact ⟨hb, rfl, fun e he => by simp [registerDepth] at he⟩
        | some k =>
          obtain ⟨h₁, h₂, _, h₄⟩ := registerTarget_built tgtOf b k hb
          refine ⟨h₁, h₂, fun e he => ?_⟩
          simp only [registerDepth, Option.some.injEq] at he ⊢
          omega
      generalize registerDepth tgtOf b dk = r at hr
      obtain ⟨hB, hs, hd⟩ := hr
      have hlen : (updConns t (setConn s d r.1 v) r.2.tgts).length = r.2.tgts.length := by
        simp [updConns]
      refine ⟨hB.srcKeys, ?_, ?_, ?_⟩
      · rw [updConns_keys]; exact hB.tgtKeys
      · intro p hp c hc
        simp only [hlen]
        rcases updConns_mem hp with hp | ⟨q, hq, rfl⟩
        · exact hB.conns p hp c hc
        · rcases setConn_mem s d r.1 v q.2.conns c hc with h | ⟨h₁, h₂⟩
          · exact hB.conns q hq c h
          · refine ⟨by rw [h₁, hs]; exact hlt.1, fun e he => ?_⟩
            rcases h₂ with h₂ | ⟨c', hc', h₂⟩
            · exact hd e (h₂.symm.trans he)
            · exact (hB.conns q hq c' hc').2 e (h₂.symm.trans he)
      · intro p hp
        rcases updConns_mem hp with hp | ⟨q, hq, rfl⟩
        · exact hB.once p hp
        · show ((setConn s d r.1 v q.2.conns).map Conn.source).Nodup
          rw [setConn_sources]
          split
          · exact hB.once q hq
          · next hn =>
            rw [List.nodup_append]
            refine ⟨hB.once q hq, by simp, ?_⟩
            intro a ha c hc
            simp only [List.mem_singleton] at hc
            subst hc
            rintro rfl
            exact hn ha

theorem foldl_built (srcOf : K → Source) (tgtOf : K → Target) : ∀ (ops : List (Op K)) (b : Builder K),
    Built b → Built (ops.foldl (step srcOf tgtOf) b)
  | [], _, h => h
  | op :: ops, b, h => foldl_built srcOf tgtOf ops _ (step_built srcOf tgtOf b op h)

/-- C60: after every sequence of registrations and connections, no key is registered twice, no target has
two connections from the same source, and every connection refers to a registered source and, for its
depth, to a registered target; so the graph which is evaluated is well formed. -/
theorem matrix_built (srcOf : K → Source) (tgtOf : K → Target) (ops : List (Op K)) :
    let b := build srcOf tgtOf ops
    (b.srcs.map (·.1)).Nodup ∧ (b.tgts.map (·.1)).Nodup ∧
    (∀ p ∈ b.tgts, (p.2.conns.map Conn.source).Nodup ∧ ∀ c ∈ p.2.conns,
      c.source < b.srcs.length ∧ ∀ d, c.depthMod = some d → d < b.tgts.length) ∧
    WellFormed b.graph := by
  have hb : Built (build srcOf tgtOf ops) :=
    foldl_built srcOf tgtOf ops _ ⟨by simp, by simp, by simp, by simp⟩
  refine ⟨hb.srcKeys, hb.tgtKeys, fun p hp => ⟨hb.once p hp, hb.conns p hp⟩, ?_⟩
  intro tgt ht c hc
  obtain ⟨p, hp, rfl⟩ := List.mem_map.1 ht
  simpa [Builder.graph] using (hb.conns p hp c hc).1

theorem indexOf_lt {A : Type} {l : List (K × A)} {k : K} {i : Nat} (h : indexOf l k = some i) :
    ∃ a, l[i]? = some (k, a) := by
  obtain ⟨hlt, hp, _⟩ := List.findIdx?_eq_some_iff_getElem.1 h
  refine ⟨l[i].2, ?_⟩
  rw [List.getElem?_eq_getElem hlt]
  have : l[i].1 = k := by simpa using hp
  rw [← this]

/-- C60: registering a key gives an identifier of that key, which stays its identifier when anything else
is registered or connected afterwards. -/
theorem target_id_stable (srcOf : K → Source) (tgtOf : K → Target) (b : Builder K) (k : K)
    (ops : List (Op K)) :
    let r := registerTarget tgtOf b k
    ∃ tgt, (ops.foldl (step srcOf tgtOf) r.2).tgts[r.1]? = some (k, tgt) := by
  have key : ∀ (ops : List (Op K)) (b : Builder K) (i : Nat) (tgt : Target),
      b.tgts[i]? = some (k, tgt) →
      ∃ tgt', (ops.foldl (step srcOf tgtOf) b).tgts[i]? = some (k, tgt') := by
    have reg : ∀ (b : Builder K) (k' : K) (i : Nat) (tgt : Target), b.tgts[i]? = some (k, tgt) →
        (registerTarget tgtOf b k').2.tgts[i]? = some (k, tgt) := by
      intro b k' i tgt h
      unfold registerTarget
      split
      · exact h
      · have hlt := (List.getElem?_eq_some_iff.1 h).1
        simpa [List.getElem?_append_left hlt] using h
    intro ops
    induction ops with
    | nil => exact fun b i tgt h => ⟨tgt, h⟩
    | cons op ops ih =>
      intro b i tgt h
      rw [List.foldl_cons]
      cases op with
      | source k' =>
        refine ih _ i tgt ?_
        simp only [step, registerSource]
        split <;> exact h
      | target k' => exact ih _ i tgt (reg b k' i tgt h)
      | connect s t d dk v =>
        simp only [step, connect]
        split
        · exact ih _ i tgt h
        · have h' : (registerDepth tgtOf b dk).2.tgts[i]? = some (k, tgt) := by
            cases dk with
            | none => exact h
            | some k' => exact reg b k' i tgt h
          by_cases hti : t = i
          · refine ih _ i { tgt with conns := setConn s d (registerDepth tgtOf b dk).1 v tgt.conns } ?_
            simp [updConns, h', hti]
          · refine ih _ i tgt ?_
            simp [updConns, h', hti]
  intro r
  have h0 : ∃ tgt, r.2.tgts[r.1]? = some (k, tgt) := by
    show ∃ tgt, (registerTarget tgtOf b k).2.tgts[(registerTarget tgtOf b k).1]? = some (k, tgt)
    unfold registerTarget
    cases h : indexOf b.tgts k with
    | some i => exact indexOf_lt h
    | none => exact ⟨{ tgtOf k with conns := [] }, by simp⟩
  obtain ⟨tgt, h⟩ := h0
  exact key ops r.2 r.1 tgt h

/-- C60: a successful connection has exactly the depth and the velocity scaling it was given, and the
depth target of its key; the connections of all other pairs are unchanged, also when the depth target had
to be registered. -/
theorem connect_effect (tgtOf : K → Target) (b : Builder K) (s t : Nat) (d v : ℚ) (dk : Option K)
    (hok : (connect tgtOf b s t d dk v).1 = true) :
    (∃ (p : K × Target) (c : Conn), (connect tgtOf b s t d dk v).2.tgts[t]? = some p ∧ c ∈ p.2.conns ∧ c.source = s ∧
      c.depth = d ∧ c.velToDepth = v ∧
      ∀ k, dk = some k → ∃ (i : Nat) (q : K × Target), c.depthMod = some i ∧
        (connect tgtOf b s t d dk v).2.tgts[i]? = some q ∧ q.1 = k) ∧
    ∀ (t' : Nat) (p : K × Target), b.tgts[t']? = some p → ∃ p' : K × Target, (connect tgtOf b s t d dk v).2.tgts[t']? = some p' ∧
      p'.1 = p.1 ∧ p'.2.conns.filter (fun c => t' ≠ t ∨ c.source ≠ s) =
        p.2.conns.filter (fun c => t' ≠ t ∨ c.source ≠ s) := by
  unfold connect at hok ⊢
  split at hok
  · simp at hok
  next hlt =>
  rw [if_neg hlt]
  push Not at hlt
  simp only
  have hold : ∀ (t' : Nat) (p : K × Target), b.tgts[t']? = some p → (registerDepth tgtOf b dk).2.tgts[t']? = some p := by
    intro t' p h
    cases dk with
    | none => exact h
    | some k =>
      simp only [registerDepth, registerTarget]
      split
      · exact h
      · have hlt := (List.getElem?_eq_some_iff.1 h).1
        simpa [List.getElem?_append_left hlt] using h
  have hnew : ∀ k, dk = some k → ∃ (i : Nat) (q : K × Target), (registerDepth tgtOf b dk).1 = some i ∧
      (registerDepth tgtOf b dk).2.tgts[i]? = some q ∧ q.1 = k := by
    rintro k rfl
    simp only [registerDepth, registerTarget]
    cases h : indexOf b.tgts k with
    | some i =>
      obtain ⟨a, ha⟩ := indexOf_lt h
      exact ⟨i, (k, a), rfl, ha, rfl⟩
    | none => exact ⟨_, (k, { tgtOf k with conns := [] }), rfl, by simp, rfl⟩
  generalize registerDepth tgtOf b dk = r at hold hnew
  have hset : ∀ cs : List Conn, ∃ c ∈ setConn s d r.1 v cs, c.source = s ∧ c.depth = d ∧
      c.velToDepth = v ∧ ∀ i, r.1 = some i → c.depthMod = some i := by
    intro cs
    induction cs with
    | nil => exact ⟨⟨s, d, r.1, v⟩, by simp [setConn], rfl, rfl, rfl, fun i h => h⟩
    | cons x cs ih =>
      rw [setConn]
      by_cases hx : x.source = s
      · rw [if_pos hx]
        exact ⟨_, List.mem_cons_self, rfl, rfl, rfl, fun i h => by simp [h, keepDepth]⟩
      · rw [if_neg hx]
        obtain ⟨c, hc, hrest⟩ := ih
        exact ⟨c, List.mem_cons_of_mem _ hc, hrest⟩
  have hkeep : ∀ cs : List Conn, (setConn s d r.1 v cs).filter (fun c => decide (c.source ≠ s)) =
      cs.filter (fun c => decide (c.source ≠ s)) := by
    intro cs
    induction cs with
    | nil => simp [setConn]
    | cons x cs ih =>
      rw [setConn]
      by_cases hx : x.source = s
      · simp [hx]
      · rw [if_neg hx]
        simpa [hx] using ih
  constructor
  · have hb : b.tgts[t]? = some (b.tgts[t]'hlt.2) := List.getElem?_eq_getElem hlt.2
    have ht := hold t _ hb
    generalize b.tgts[t]'hlt.2 = p at ht
    obtain ⟨c, hc, h₁, h₂, h₃, h₄⟩ := hset p.2.conns
    refine ⟨(p.1, { p.2 with conns := setConn s d r.1 v p.2.conns }), c, ?_, hc, h₁, h₂, h₃, ?_⟩
    · simp [updConns, ht]
    · intro k hk
      obtain ⟨i, q, e₁, e₂, e₃⟩ := hnew k hk
      refine ⟨i, if t = i then (q.1, { q.2 with conns := setConn s d r.1 v q.2.conns }) else q,
        h₄ i e₁, ?_, ?_⟩
      · by_cases hti : t = i
        · simp [updConns, e₂, hti]
        · simp [updConns, e₂, hti]
      · split <;> exact e₃
  · intro t' p hp
    have ht := hold t' p hp
    by_cases htt : t' = t
    · subst htt
      refine ⟨(p.1, { p.2 with conns := setConn s d r.1 v p.2.conns }), ?_, rfl, ?_⟩
      · simp [updConns, ht]
      · simpa using hkeep p.2.conns
    · have htt' : ¬ t = t' := fun h => htt h.symm
      exact ⟨p, by simp [updConns, ht, htt'], rfl, rfl⟩

/-- Registering a source, a target, and a connection whose depth is controlled by a new target; and
connecting again with another depth. -/
example :
    let srcOf : String → Source := fun _ => { region := some 0, gen := fun _ _ _ _ => 0 }
    let tgtOf : String → Target := fun _ => { region := 0, multiplicative := false, conns := [] }
    let b : Builder String := build srcOf tgtOf [.source "lfo", .target "pitch", .connect 0 0 3 (some "depth") 0,
      .target "pitch", .source "cc1", .connect 1 1 8 none 0, .connect 0 0 4 none 0, .connect 0 5 1 none 0]
    b.srcs.map (·.1) = ["lfo", "cc1"] ∧
    b.tgts.map (fun p => (p.1, p.2.conns.map (fun c => (c.source, c.depth, c.depthMod)))) =
      [("pitch", [(0, 4, some 1)]), ("depth", [(1, 8, none)])] := by
  intro srcOf tgtOf b
  exact ⟨by decide +kernel, by decide +kernel⟩

end

end Verif.ModMatrix
