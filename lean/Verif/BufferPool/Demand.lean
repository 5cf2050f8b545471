import Verif.BufferPool.Props

/-!
# The temporary buffers one block of rendering needs

Models which temporary buffers `Synth::renderBlock` (Synth.cpp:1093-1238) and everything it calls
take from the pool, and in which scopes they are held.  A program is a tree of scopes; a request in
it is answered by the allocator of `Props.lean`.  Only the requests are modelled, not what is
computed.  Every request of a block asks for at most the configured number of frames, so that a
request is refused only if all buffers of its kind are taken.
-/

namespace Verif.BufferPool

inductive Kind where
  | mono | index | stereo
deriving DecidableEq, Repr

/-- What a piece of rendering code does with the pool. -/
inductive Prog where
  | skip
  | seq (a b : Prog)
  /-- take a buffer, run the body, give the buffer back -/
  | lend (k : Kind) (body : Prog)
deriving DecidableEq, Repr

def seqs : List Prog → Prog
  | [] => .skip
  | p :: ps => .seq p (seqs ps)

/-- The availability arrays of the three kinds (BufferPool.h:174-179). -/
structure Pool where
  mono : List Int
  index : List Int
  stereo : List Int
deriving DecidableEq, Repr

def Pool.get (p : Pool) : Kind → List Int
  | .mono => p.mono
  | .index => p.index
  | .stereo => p.stereo

def Pool.set (p : Pool) (l : List Int) : Kind → Pool
  | .mono => { p with mono := l }
  | .index => { p with index := l }
  | .stereo => { p with stereo := l }

/-- Run a program; `none` if some request is refused (then the code gives up what it was doing). -/
def exec (p : Pool) : Prog → Option Pool
  | .skip => some p
  | .seq a b => (exec p a).bind fun p' => exec p' b
  | .lend k body =>
    match firstFree (p.get k) with
    | none => none
    | some i =>
      (exec (p.set (bump (p.get k) i (-1)) k) body).map fun p' => p'.set (bump (p'.get k) i 1) k

/-- BufferPool.h:65-72, Config.h:26-28 — six mono buffers, four index buffers, four stereo ones. -/
def fresh : Pool :=
  { mono := List.replicate 6 1, index := List.replicate 4 1, stereo := List.replicate 4 1 }

/-! ## The rendering code -/

/-- LFO.cpp:228-317 with `generatePhase` (330-405): one buffer for the phases if there are
sub-oscillators, and for each of them one more if its rate follows the beat and is modulated.  The
modulations asked for inside (beats, frequency, phase) come from controllers, aftertouch or
envelopes, which use no buffers: no opcode connects an LFO to them. -/
def lfo : List Bool → Prog
  | [] => .skip
  | subs => .lend .mono (seqs (subs.map fun b => if b then .lend .mono .skip else .skip))

/-- The modulation targets asked for while a voice is rendered. -/
inductive Target where
  | masterAmplitude | amplitude | volume | pan | width | position | pitch
  | filCutoff (n : Nat) | filResonance (n : Nat) | filGain (n : Nat)
  | eqFrequency (n : Nat) | eqBandwidth (n : Nat) | eqGain (n : Nat)
  | oscDetune | oscModDepth
deriving DecidableEq, Repr

/-- The targets that an opcode can connect an LFO to: Region.cpp:1386-1482 (`lfoN_…`) and 895-922,
976-1000 (`amplfo`, `pitchlfo`, `fillfo`).  The main amplitude takes an envelope only
(Synth.cpp:183-191), the oscillator targets controllers only (Region.cpp:167-177). -/
def takesLfo : Target → Bool
  | .masterAmplitude | .oscDetune | .oscModDepth => false
  | _ => true

inductive Oscillator where
  | noise | single | unison | modulated
deriving DecidableEq, Repr

inductive Source where
  | osc (o : Oscillator)
  /-- a sample: whether it loops, and how many stretches of the block are in the loop crossfade -/
  | sample (loops : Bool) (crossfades : Nat)
deriving DecidableEq, Repr

/-- A voice being rendered.  `lfos t`: the LFOs generated when target `t` is asked for, i.e. those
connected to `t` and not generated earlier in this block. -/
structure Voice where
  source : Source
  stereo : Bool
  filters : Nat
  eqs : Nat
  lfos : Target → List (List Bool)
  /-- LFOs that no target asked for (`ModMatrix::endVoice`) -/
  unused : List (List Bool)

/-- ModMatrix.cpp:386-498 — `getModulation`, as far as buffers are concerned. -/
def modulation (v : Voice) (t : Target) : Prog :=
  if takesLfo t then seqs ((v.lfos t).map lfo) else .skip

/-- Voice.cpp:1497-1650 — `fillWithGenerator`; `pitchEnvelope` (1980-2000) asks for the pitch. -/
def fillWithGenerator (v : Voice) : Oscillator → Prog
  | .noise => .skip
  | .single =>
    .lend .mono (.seq (modulation v .pitch) (.lend .mono (.lend .mono .skip)))
  | .unison =>
    .lend .mono (.seq (modulation v .pitch) (.lend .mono
      (.lend .mono (.lend .mono (.lend .mono (modulation v .oscDetune))))))
  | .modulated =>
    .lend .mono (.seq (modulation v .pitch) (.lend .mono (.lend .mono (.lend .mono
      (.seq (modulation v .oscDetune) (modulation v .oscModDepth))))))

/-- Voice.cpp:1067-1358 — `fillWithData`. -/
def fillWithData (v : Voice) (loops : Bool) (crossfades : Nat) : Prog :=
  .lend .mono (.lend .index (.seq (.lend .mono (modulation v .pitch))
    (let parts := seqs (List.replicate crossfades (.lend .mono (.lend .mono (.lend .index .skip))))
     if loops then .lend .index (.lend .index parts) else .skip)))

/-- Voice.cpp:923-955 — the amplitude stages, with `amplitudeEnvelope` (894-921) and
`applyCrossfades` (854-892). -/
def ampStage (v : Voice) : Prog :=
  .lend .mono (.seq (seqs [modulation v .masterAmplitude, modulation v .amplitude, modulation v .volume])
    (.lend .mono (.lend .mono .skip)))

/-- Voice.cpp:957-1030 — the panning stages. -/
def panStage (v : Voice) : Prog :=
  .lend .mono (if v.stereo
    then seqs [modulation v .pan, modulation v .width, modulation v .position]
    else modulation v .pan)

/-- Voice.cpp:1032-1065 with FilterPool.cpp:63-113 and EQPool.cpp:46-88. -/
def filterStage (v : Voice) : Prog :=
  .seq
    (seqs ((List.range v.filters).map fun n => .lend .mono (.lend .mono (.lend .mono
      (seqs [modulation v (.filCutoff n), modulation v (.filResonance n), modulation v (.filGain n)])))))
    (seqs ((List.range v.eqs).map fun n => .lend .mono (.lend .mono (.lend .mono
      (seqs [modulation v (.eqFrequency n), modulation v (.eqBandwidth n), modulation v (.eqGain n)])))))

/-- Voice.cpp:776-832 — `Voice::renderBlock`, then `ModMatrix::endVoice` (ModMatrix.cpp:360-384). -/
def renderVoice (v : Voice) : Prog :=
  .seq
    (match v.source with
     | .osc o => fillWithGenerator v o
     | .sample loops crossfades => fillWithData v loops crossfades)
    (.seq (if v.stereo then seqs [ampStage v, panStage v, filterStage v]
      else seqs [ampStage v, filterStage v, panStage v])
      (seqs (v.unused.map lfo)))

/-- Synth.cpp:1093-1238 — one block. -/
def renderBlock (voices : List Voice) : Prog :=
  .lend .stereo (.lend .stereo (.lend .mono (seqs (voices.map renderVoice))))

/-! ## How much a program needs -/

/-- The largest number of buffers of a kind held at the same time. -/
def peak (k : Kind) : Prog → Nat
  | .skip => 0
  | .seq a b => max (peak k a) (peak k b)
  | .lend k' body => (if k' = k then 1 else 0) + peak k body

def freeCount (l : List Int) : Nat := l.countP (· == 1)

theorem firstFree_isSome {l : List Int} (h : 0 < freeCount l) : ∃ i, firstFree l = some i := by
  cases hf : firstFree l with
  | some i => exact ⟨i, rfl⟩
  | none =>
    exfalso
    obtain ⟨a, ha, h1⟩ := List.countP_pos_iff.1 h
    obtain ⟨i, hi⟩ := List.mem_iff_getElem?.1 ha
    have : a = 1 := by simpa using h1
    subst this
    exact firstFree_none hf i hi

theorem bump_set {l : List Int} {i : Nat} {v : Int} (h : l[i]? = some v) (d : Int) :
    bump l i d = l.set i (v + d) := by
  unfold bump
  rw [h]

theorem freeCount_bump {l : List Int} {i : Nat} (h : l[i]? = some 1) :
    freeCount (bump l i (-1)) + 1 = freeCount l := by
  rw [bump_set h]
  have := countP_set_of (fun a : Int => a == 1) l i 1 (1 + -1) h
  unfold freeCount
  simpa using this

theorem bump_bump {l : List Int} {i : Nat} (h : l[i]? = some 1) :
    bump (bump l i (-1)) i 1 = l := by
  have hlt : i < l.length := by
    by_contra hge
    rw [List.getElem?_eq_none (by omega)] at h
    cases h
  rw [bump_set h]
  have : (l.set i (1 + -1))[i]? = some (1 + -1) := List.getElem?_set_self hlt
  rw [bump_set this, List.set_set]
  apply List.ext_getElem?
  intro j
  by_cases hj : i = j
  · subst hj
    rw [List.getElem?_set_self hlt, h]
    norm_num
  · rw [List.getElem?_set_ne hj]

theorem get_set (p : Pool) (l : List Int) (k : Kind) : (p.set l k).get k = l := by
  cases k <;> rfl

theorem get_set_ne (p : Pool) (l : List Int) {k k' : Kind} (h : k ≠ k') :
    (p.set l k).get k' = p.get k' := by
  cases k <;> cases k' <;> first | rfl | exact absurd rfl h

theorem set_set_get (p : Pool) (l : List Int) (k : Kind) : (p.set l k).set (p.get k) k = p := by
  cases k <;> rfl

/-- A program gets everything it asks for, and leaves the pool as it found it, if of each kind as
many buffers are free as it holds at the same time. -/
theorem exec_of_peak (prog : Prog) (p : Pool) (h : ∀ k, peak k prog ≤ freeCount (p.get k)) :
    exec p prog = some p := by
  induction prog generalizing p with
  | skip => rfl
  | seq a b iha ihb =>
    simp only [exec]
    have ha : exec p a = some p := iha p fun k => le_trans (Nat.le_max_left _ _) (h k)
    have hb : exec p b = some p := ihb p fun k => le_trans (Nat.le_max_right _ _) (h k)
    rw [ha]
    exact hb
  | lend k body ih =>
    simp only [exec]
    have hk := h k
    simp only [peak, if_true] at hk
    obtain ⟨i, hi⟩ := firstFree_isSome (l := p.get k) (by omega)
    have h1 := (firstFree_some hi).1
    have hbody : exec (p.set (bump (p.get k) i (-1)) k) body =
        some (p.set (bump (p.get k) i (-1)) k) := by
      apply ih
      intro k'
      by_cases hkk : k = k'
      · subst hkk
        rw [get_set]
        have := freeCount_bump h1
        omega
      · rw [get_set_ne _ _ hkk]
        have := h k'
        simp only [peak, if_neg hkk] at this
        omega
    rw [hi]
    dsimp only
    rw [hbody]
    simp only [Option.map_some, get_set]
    rw [bump_bump h1]
    cases k <;> rfl

theorem peak_seqs (k : Kind) (n : Nat) {ps : List Prog} (h : ∀ p ∈ ps, peak k p ≤ n) :
    peak k (seqs ps) ≤ n := by
  induction ps with
  | nil => exact Nat.zero_le n
  | cons p ps ih =>
    simp only [seqs, peak]
    exact Nat.max_le.2 ⟨h p (by simp), ih fun q hq => h q (by simp [hq])⟩

theorem peak_lfo (k : Kind) (subs : List Bool) : peak k (lfo subs) ≤ if k = .mono then 2 else 0 := by
  cases subs with
  | nil => exact Nat.zero_le _
  | cons b subs =>
    simp only [lfo, peak]
    have : peak k (seqs ((b :: subs).map fun b => if b then Prog.lend .mono .skip else .skip)) ≤
        if k = .mono then 1 else 0 := by
      apply peak_seqs
      intro p hp
      simp only [List.mem_map] at hp
      obtain ⟨c, _, rfl⟩ := hp
      cases c <;> cases k <;> simp [peak]
    cases k <;> simp at this ⊢ <;> omega

/-- The limit for what a modulation may take. -/
def lfoBound (k : Kind) : Nat := if k = .mono then 2 else 0

theorem peak_modulation (k : Kind) (v : Voice) (t : Target) :
    peak k (modulation v t) ≤ if takesLfo t then lfoBound k else 0 := by
  unfold modulation
  split
  · apply peak_seqs
    intro p hp
    simp only [List.mem_map] at hp
    obtain ⟨c, _, rfl⟩ := hp
    exact peak_lfo k c
  · exact Nat.le_refl 0

/-- What a voice may hold. -/
def voiceBound : Kind → Nat
  | .mono => 5
  | .index => 4
  | .stereo => 0

theorem peak_seqs3 (k : Kind) (n : Nat) {a b c : Prog} (ha : peak k a ≤ n) (hb : peak k b ≤ n)
    (hc : peak k c ≤ n) : peak k (seqs [a, b, c]) ≤ n := by
  apply peak_seqs
  intro p hp
  simp only [List.mem_cons, List.not_mem_nil, or_false] at hp
  rcases hp with rfl | rfl | rfl
  · exact ha
  · exact hb
  · exact hc

theorem peak_generator (k : Kind) (v : Voice) (o : Oscillator) :
    peak k (fillWithGenerator v o) ≤ voiceBound k := by
  have hp := peak_modulation k v .pitch
  have hd := peak_modulation k v .oscDetune
  have hm := peak_modulation k v .oscModDepth
  simp only [takesLfo, if_true, if_false, lfoBound, Bool.false_eq_true] at hp hd hm
  cases o <;> cases k <;> simp [fillWithGenerator, peak, voiceBound] at * <;> omega

theorem peak_data (k : Kind) (v : Voice) (loops : Bool) (n : Nat) :
    peak k (fillWithData v loops n) ≤ voiceBound k := by
  have hx : peak k (seqs (List.replicate n (.lend .mono (.lend .mono (.lend .index .skip))))) ≤
      match k with | .mono => 2 | .index => 1 | .stereo => 0 := by
    apply peak_seqs
    intro p hp
    rw [List.eq_of_mem_replicate hp]
    cases k <;> decide
  have hp := peak_modulation k v .pitch
  simp only [takesLfo, if_true, lfoBound] at hp
  cases loops <;> cases k <;> simp [fillWithData, peak, voiceBound] at * <;> omega

theorem peak_amp (k : Kind) (v : Voice) : peak k (ampStage v) ≤ voiceBound k := by
  have h := peak_seqs3 k (lfoBound k)
    (le_trans (peak_modulation k v .masterAmplitude) (by simp [takesLfo]))
    (le_trans (peak_modulation k v .amplitude) (by simp [takesLfo]))
    (le_trans (peak_modulation k v .volume) (by simp [takesLfo]))
  cases k <;> simp [ampStage, peak, voiceBound, lfoBound] at * <;> omega

theorem peak_pan (k : Kind) (v : Voice) : peak k (panStage v) ≤ voiceBound k := by
  have h := peak_seqs3 k (lfoBound k)
    (le_trans (peak_modulation k v .pan) (by simp [takesLfo]))
    (le_trans (peak_modulation k v .width) (by simp [takesLfo]))
    (le_trans (peak_modulation k v .position) (by simp [takesLfo]))
  have h1 := peak_modulation k v .pan
  simp only [takesLfo, if_true] at h1
  unfold panStage
  split <;> cases k <;> simp [peak, voiceBound, lfoBound] at * <;> omega

theorem peak_filter (k : Kind) (v : Voice) : peak k (filterStage v) ≤ voiceBound k := by
  simp only [filterStage, peak]
  apply Nat.max_le.2
  constructor <;>
  · apply peak_seqs
    intro p hp
    simp only [List.mem_map] at hp
    obtain ⟨n, _, rfl⟩ := hp
    have h := peak_seqs3 k (lfoBound k)
      (le_trans (peak_modulation k v (.filCutoff n)) (by simp [takesLfo]))
      (le_trans (peak_modulation k v (.filResonance n)) (by simp [takesLfo]))
      (le_trans (peak_modulation k v (.filGain n)) (by simp [takesLfo]))
    have h' := peak_seqs3 k (lfoBound k)
      (le_trans (peak_modulation k v (.eqFrequency n)) (by simp [takesLfo]))
      (le_trans (peak_modulation k v (.eqBandwidth n)) (by simp [takesLfo]))
      (le_trans (peak_modulation k v (.eqGain n)) (by simp [takesLfo]))
    cases k <;> simp [peak, voiceBound, lfoBound] at * <;> omega

theorem peak_voice (k : Kind) (v : Voice) : peak k (renderVoice v) ≤ voiceBound k := by
  simp only [renderVoice, peak]
  refine Nat.max_le.2 ⟨?_, Nat.max_le.2 ⟨?_, ?_⟩⟩
  · cases v.source with
    | osc o => exact peak_generator k v o
    | sample l n => exact peak_data k v l n
  · split
    · exact peak_seqs3 k _ (peak_amp k v) (peak_pan k v) (peak_filter k v)
    · exact peak_seqs3 k _ (peak_amp k v) (peak_filter k v) (peak_pan k v)
  · apply peak_seqs
    intro p hp
    simp only [List.mem_map] at hp
    obtain ⟨c, _, rfl⟩ := hp
    refine le_trans (peak_lfo k c) ?_
    cases k <;> decide

/-! ## C63 -/

/-- **C63.** However many voices are playing, whatever they play and however they are modulated,
rendering a block gets every temporary buffer it asks for, and afterwards all buffers are free
again. -/
theorem render_never_refused (voices : List Voice) :
    exec fresh (renderBlock voices) = some fresh := by
  apply exec_of_peak
  intro k
  have h : peak k (seqs (voices.map renderVoice)) ≤ voiceBound k := by
    apply peak_seqs
    intro p hp
    simp only [List.mem_map] at hp
    obtain ⟨v, _, rfl⟩ := hp
    exact peak_voice k v
  cases k <;> simp [renderBlock, peak, voiceBound, fresh, Pool.get, freeCount, List.replicate] at * <;>
    omega

/-- A filtered voice whose cutoff follows an LFO in tempo, and a unison oscillator. -/
def busy : List Voice :=
  [{ source := .sample true 1, stereo := true, filters := 1, eqs := 1,
     lfos := fun t => if t = .filCutoff 0 then [[true, false]] else [], unused := [] },
   { source := .osc .unison, stereo := true, filters := 0, eqs := 0,
     lfos := fun _ => [], unused := [] }]

example : exec fresh (renderBlock busy) = some fresh := by decide

/-- The pool is as small as it can be: with one mono buffer or one index buffer less, this refuses a
request. -/
theorem pool_is_tight :
    exec { fresh with mono := List.replicate 5 1 } (renderBlock busy) = none ∧
    exec { fresh with index := List.replicate 3 1 } (renderBlock busy) = none := by decide

end Verif.BufferPool
