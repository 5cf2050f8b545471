import Verif.PerVoice.Model
import Mathlib.Tactic.NormNum

/-!
# Sample rates and counts, for every history

C94: every part of the engine runs at the sample rate set last.
C102: starting and rendering a note never reaches for a filter, equalizer, LFO or envelope the
voice does not have.
-/

namespace Verif.PerVoice

/-! ### C94: the sample rate reaches everything -/

/-- Everything in a voice except filters and equalizers is at rate `r`. -/
structure VoiceAt (r : ℚ) (v : Voice) : Prop where
  rate : v.rate = r
  gain : v.gainSmoother = r
  xfade : v.xfadeSmoother = r
  osc : v.oscillators = r
  power : v.power = r
  lfos : ∀ x ∈ v.lfos, x = r
  egs : ∀ g ∈ v.egs, g.rate = r
  amp : ∀ x, v.ampLFO = some x → x = r
  pitch : ∀ x, v.pitchLFO = some x → x = r
  fil : ∀ x, v.filLFO = some x → x = r

/-- Filters and equalizers of a voice are at rate `r`. -/
def FiltersAt (r : ℚ) (v : Voice) : Prop := (∀ x ∈ v.filters, x = r) ∧ ∀ x ∈ v.eqs, x = r

/-- Every effect of these outputs is at rate `r`. -/
def BusesAt (r : ℚ) (b : List (List (Option Bus))) : Prop :=
  ∀ l ∈ b, ∀ o ∈ l, ∀ bus, o = some bus → ∀ x ∈ bus, x = r

/-- The engine runs at its sample rate: all voices (filters and equalizers aside), the MIDI
clock, the modulation matrix, the beat clock, the metronome, and every effect of the outputs
that are rendered. -/
structure EngineAt (e : Engine) : Prop where
  voices : ∀ v ∈ e.voices, VoiceAt e.rate v
  midi : e.midi = e.rate
  matrix : e.matrix = e.rate
  clock : e.clock = e.rate
  metronome : e.metronome = e.rate
  effects : BusesAt e.rate (e.buses.take e.numOutputs)

lemma voiceAt_set (r : ℚ) (v : Voice) : VoiceAt r (v.setSampleRate r) where
  rate := rfl
  gain := rfl
  xfade := rfl
  osc := rfl
  power := rfl
  lfos := by simp [Voice.setSampleRate]
  egs := by simp [Voice.setSampleRate]
  amp := by simp [Voice.setSampleRate]
  pitch := by simp [Voice.setSampleRate]
  fil := by simp [Voice.setSampleRate]

lemma VoiceAt.apply {r : ℚ} {v : Voice} (h : VoiceAt r v) (s : Settings) :
    VoiceAt r (v.apply s) where
  rate := h.rate
  gain := h.gain
  xfade := h.xfade
  osc := h.osc
  power := h.power
  lfos := by
    intro x hx
    rw [List.eq_of_mem_replicate hx]; exact h.rate
  egs := by
    intro g hg
    rw [List.eq_of_mem_replicate hg]; exact h.rate
  amp := by
    intro x hx
    simp only [Voice.apply] at hx
    split at hx
    · rw [← h.rate]; exact (Option.some.inj hx).symm
    · exact absurd hx (by simp)
  pitch := by
    intro x hx
    simp only [Voice.apply] at hx
    split at hx
    · rw [← h.rate]; exact (Option.some.inj hx).symm
    · exact absurd hx (by simp)
  fil := by
    intro x hx
    simp only [Voice.apply] at hx
    split at hx
    · rw [← h.rate]; exact (Option.some.inj hx).symm
    · exact absurd hx (by simp)

lemma VoiceAt.region {r : ℚ} {v : Voice} (h : VoiceAt r v) (i : Option ℕ) :
    VoiceAt r { v with region := i } :=
  ⟨h.rate, h.gain, h.xfade, h.osc, h.power, h.lfos, h.egs, h.amp, h.pitch, h.fil⟩

lemma mem_ready {n : ℕ} {gs : List Gen} {g : Gen} (h : g ∈ ready n gs) :
    ∃ g' ∈ gs, g.rate = g'.rate := by
  unfold ready at h
  obtain ⟨i, hi, rfl⟩ := List.mem_mapIdx.mp h
  refine ⟨gs[i], List.getElem_mem hi, ?_⟩
  split <;> rfl

lemma VoiceAt.started {r : ℚ} {v : Voice} (h : VoiceAt r v) (i : Option ℕ) (n : ℕ) :
    VoiceAt r { v with region := i, egs := ready n v.egs } :=
  ⟨h.rate, h.gain, h.xfade, h.osc, h.power, h.lfos, fun g hg => by
    obtain ⟨g', h1, h2⟩ := mem_ready hg
    rw [h2]; exact h.egs g' h1, h.amp, h.pitch, h.fil⟩

lemma BusesAt.addOutputs {r : ℚ} {b : List (List (Option Bus))} (h : BusesAt r b) (n : ℕ) :
    BusesAt r (addOutputs n b) := by
  intro l hl o ho bus hb x hx
  rcases List.mem_append.mp hl with hl | hl
  · exact h l hl o ho bus hb x hx
  · rw [List.eq_of_mem_replicate hl] at ho
    simp at ho
    subst ho
    cases hb
    simp at hx

lemma mem_modify {α : Type} {f : α → α} {i : ℕ} {l : List α} {y : α} (h : y ∈ l.modify i f) :
    y ∈ l ∨ ∃ x ∈ l, y = f x := by
  obtain ⟨j, hj, rfl⟩ := List.getElem_of_mem h
  rw [List.getElem_modify]
  split
  · exact Or.inr ⟨_, List.getElem_mem _, rfl⟩
  · exact Or.inl (List.getElem_mem _)

lemma withBus_at {r : ℚ} {f : Bus → Bus} (hf : ∀ b : Bus, (∀ x ∈ b, x = r) → ∀ x ∈ f b, x = r)
    (i : ℕ) {l : List (Option Bus)} (h : ∀ o ∈ l, ∀ bus, o = some bus → ∀ x ∈ bus, x = r) :
    ∀ o ∈ withBus f i l, ∀ bus, o = some bus → ∀ x ∈ bus, x = r := by
  have h' : ∀ o ∈ l ++ List.replicate (i + 1 - l.length) Option.none,
      ∀ bus, o = some bus → ∀ x ∈ bus, x = r := by
    intro o ho bus hb
    rcases List.mem_append.mp ho with ho | ho
    · exact h o ho bus hb
    · rw [List.eq_of_mem_replicate ho] at hb; cases hb
  intro o ho bus hb x hx
  rcases mem_modify ho with ho | ⟨o', ho', rfl⟩
  · exact h' o ho bus hb x hx
  · cases hb
    refine hf _ (fun y hy => ?_) x hx
    cases o' with
    | none => simp at hy
    | some b => exact h' _ ho' b rfl y hy

lemma BusesAt.modify {r : ℚ} {b : List (List (Option Bus))} (h : BusesAt r b) {f : Bus → Bus}
    (hf : ∀ b : Bus, (∀ x ∈ b, x = r) → ∀ x ∈ f b, x = r) (k i : ℕ) :
    BusesAt r (b.modify k (withBus f i)) := by
  intro l hl
  rcases mem_modify hl with hl | ⟨l', hl', rfl⟩
  · exact h l hl
  · exact withBus_at hf i (h l' hl')

lemma BusesAt.handleFx {r : ℚ} {b : List (List (Option Bus))} (h : BusesAt r b) (fx : Fx) :
    BusesAt r (handleFx r fx b) := by
  have h1 : ∀ (g : List ℕ) b, BusesAt r b →
      BusesAt r (g.foldl (fun b i => b.modify fx.output (withBus id i)) b) := by
    intro g
    induction g with
    | nil => intro b hb; exact hb
    | cons i g ih => intro b hb; exact ih _ (hb.modify (fun _ hx => hx) fx.output i)
  unfold PerVoice.handleFx
  have h2 := h1 fx.gains _ (h.addOutputs fx.output)
  split
  · exact h2
  · exact h2.modify (fun b hb x hx => by
      rcases List.mem_append.mp hx with hx | hx
      · exact hb x hx
      · exact List.mem_singleton.mp hx) fx.output _

lemma BusesAt.foldFx {r : ℚ} (fx : List Fx) : ∀ {b : List (List (Option Bus))}, BusesAt r b →
    BusesAt r (fx.foldl (fun b h => PerVoice.handleFx r h b) b) := by
  induction fx with
  | nil => intro b hb; exact hb
  | cons h fx ih => intro b hb; exact ih (hb.handleFx h)

lemma BusesAt.take {r : ℚ} {b : List (List (Option Bus))} (h : BusesAt r b) (n : ℕ) :
    BusesAt r (b.take n) := fun l hl => h l (List.mem_of_mem_take hl)

lemma busesAt_nil (r : ℚ) : BusesAt r [] := by intro l hl; simp at hl

lemma EngineAt.reset {e : Engine} (h : EngineAt e) (n : ℕ) : EngineAt (e.resetVoices n) where
  voices := by
    intro v hv
    simp only [Engine.resetVoices, List.map_replicate] at hv
    rw [List.eq_of_mem_replicate hv]
    exact (voiceAt_set _ _).apply _
  midi := h.midi
  matrix := h.matrix
  clock := h.clock
  metronome := h.metronome
  effects := h.effects

lemma EngineAt.applied {e : Engine} (h : EngineAt e) (s : Settings) (rs : List Need) :
    EngineAt ({ e with regions := rs, settings := s }).apply where
  voices := by
    intro v hv
    simp only [Engine.apply] at hv
    obtain ⟨v', h1, rfl⟩ := List.mem_map.mp hv
    exact (h.voices v' h1).apply _
  midi := h.midi
  matrix := h.matrix
  clock := h.clock
  metronome := h.metronome
  effects := h.effects

lemma start_at : EngineAt Engine.start := by
  unfold Engine.start
  apply EngineAt.reset
  exact ⟨by simp, rfl, rfl, rfl, rfl, ((busesAt_nil _).addOutputs 0).take _⟩

lemma EngineAt.voices_set {e : Engine} (h : EngineAt e) {k : ℕ} {v : Voice}
    (hv : VoiceAt e.rate v) : EngineAt { e with voices := e.voices.set k v } where
  voices := by
    intro w hw
    rcases List.mem_or_eq_of_mem_set hw with hw | rfl
    · exact h.voices w hw
    · exact hv
  midi := h.midi
  matrix := h.matrix
  clock := h.clock
  metronome := h.metronome
  effects := h.effects

lemma EngineAt.step {e e' : Engine} (h : EngineAt e) (o : Op) (hs : step e o = some e') :
    EngineAt e' := by
  cases o with
  | setSampleRate r =>
    simp only [PerVoice.step, Option.some.injEq] at hs
    subst hs
    refine ⟨?_, rfl, rfl, rfl, rfl, ?_⟩
    · intro v hv
      obtain ⟨v', _, rfl⟩ := List.mem_map.mp hv
      exact voiceAt_set r v'
    · intro l hl o ho bus hb x hx
      obtain ⟨i, hi, rfl⟩ := List.getElem_of_mem hl
      simp only [List.getElem_take, List.getElem_mapIdx] at ho
      rw [if_pos (by simp only [List.length_take] at hi; omega)] at ho
      obtain ⟨o', _, rfl⟩ := List.mem_map.mp ho
      cases o' with
      | none => cases hb
      | some b =>
        cases hb
        obtain ⟨_, _, rfl⟩ := List.mem_map.mp hx
        rfl
  | setNumVoices n =>
    simp only [PerVoice.step, Option.some.injEq] at hs
    subst hs
    split
    · exact h
    · exact h.reset n
  | load fx rs output =>
    simp only [PerVoice.step, Option.some.injEq] at hs
    subst hs
    refine ⟨?_, h.midi, h.matrix, h.clock, h.metronome, ?_⟩
    · intro v hv
      simp only [Engine.apply, Engine.clear] at hv
      obtain ⟨v1, h1, rfl⟩ := List.mem_map.mp hv
      obtain ⟨v2, h2, rfl⟩ := List.mem_map.mp h1
      exact ((h.voices v2 h2).region _).apply _
    · exact ((BusesAt.foldFx fx ((busesAt_nil e.rate).addOutputs 0)).addOutputs _).take _
  | loadFails fx =>
    simp only [PerVoice.step, Option.some.injEq] at hs
    subst hs
    refine ⟨?_, h.midi, h.matrix, h.clock, h.metronome, ?_⟩
    · intro v hv
      simp only [Engine.clear] at hv
      obtain ⟨v2, h2, rfl⟩ := List.mem_map.mp hv
      exact (h.voices v2 h2).region _
    · exact (BusesAt.foldFx fx ((busesAt_nil e.rate).addOutputs 0)).take _
  | addFilter i =>
    simp only [PerVoice.step] at hs
    split at hs
    · cases hs; exact h
    · cases hs; exact h.applied _ _
  | addEq i =>
    simp only [PerVoice.step] at hs
    split at hs
    · cases hs; exact h
    · cases hs; exact h.applied _ _
  | start k i =>
    simp only [PerVoice.step] at hs
    split at hs
    · rename_i v r hv hr
      split at hs
      · cases hs
        exact h.voices_set ((h.voices v (List.mem_of_getElem? hv)).started _ _)
      · cases hs
    · cases hs; exact h
  | stop k =>
    simp only [PerVoice.step] at hs
    split at hs
    · rename_i v hv
      cases hs
      exact h.voices_set ((h.voices v (List.mem_of_getElem? hv)).region _)
    · cases hs; exact h
  | render =>
    simp only [PerVoice.step] at hs
    split at hs
    · cases hs; exact h
    · cases hs

lemma run_induct {P : Engine → Prop} (hstep : ∀ e o e', P e → step e o = some e' → P e')
    {e e' : Engine} (h : P e) {ops : List Op} (hr : run e ops = some e') : P e' := by
  induction ops generalizing e with
  | nil => cases hr; exact h
  | cons o os ih =>
    simp only [run] at hr
    cases hs : step e o with
    | none => rw [hs] at hr; cases hr
    | some e1 => rw [hs] at hr; exact ih (hstep e o e1 h hs) hr

lemma run_append (e : Engine) (a b : List Op) : run e (a ++ b) = (run e a).bind (run · b) := by
  induction a generalizing e with
  | nil => rfl
  | cons o os ih =>
    simp only [List.cons_append, run]
    cases step e o with
    | none => rfl
    | some e1 => exact ih e1

/-- C94, the part that holds for every history: after any calls, loads, messages, notes and
blocks, the voices' clocks, smoothers, oscillators, LFOs and envelopes, the MIDI clock, the
modulation matrix, the beat clock, the metronome and all effects run at the engine's rate.
Missing: filters and equalizers, see `filter_rate_violated`. -/
theorem rates_follow_partial (ops : List Op) (e : Engine) (h : run Engine.start ops = some e) :
    EngineAt e :=
  run_induct (fun _ o _ he hs => he.step o hs) start_at h

/-- C94, filters and equalizers: right after the sample rate is set, they run at it as well. -/
theorem filters_after_set (ops : List Op) (r : ℚ) (e : Engine)
    (h : run Engine.start (ops ++ [.setSampleRate r]) = some e) :
    e.rate = r ∧ ∀ v ∈ e.voices, FiltersAt e.rate v := by
  rw [run_append] at h
  cases h1 : run Engine.start ops with
  | none => rw [h1] at h; cases h
  | some e1 =>
    rw [h1] at h
    simp only [Option.bind_some, run, step, Option.some.injEq] at h
    subst h
    refine ⟨rfl, fun v hv => ?_⟩
    obtain ⟨v', _, rfl⟩ := List.mem_map.mp hv
    constructor
    · intro x hx; obtain ⟨_, _, rfl⟩ := List.mem_map.mp hx; rfl
    · intro x hx; obtain ⟨_, _, rfl⟩ := List.mem_map.mp hx; rfl

/-- Every filter and equalizer is at the default rate or at the engine's. -/
def FiltersEither (e : Engine) : Prop :=
  ∀ v ∈ e.voices, (∀ x ∈ v.filters, x = defaultRate ∨ x = e.rate) ∧
    ∀ x ∈ v.eqs, x = defaultRate ∨ x = e.rate

lemma setMaxFilters_either {r : ℚ} {n : ℕ} {l : List ℚ}
    (h : ∀ x ∈ l, x = defaultRate ∨ x = r) : ∀ x ∈ setMaxFilters n l, x = defaultRate ∨ x = r := by
  unfold setMaxFilters
  split
  · exact h
  · intro x hx; exact Or.inl (List.eq_of_mem_replicate hx)

lemma FiltersEither.step {e e' : Engine} (h : FiltersEither e) (o : Op)
    (hs : step e o = some e') : FiltersEither e' := by
  have happ : ∀ (s : Settings) (v : Voice),
      ((∀ x ∈ v.filters, x = defaultRate ∨ x = e.rate) ∧
        ∀ x ∈ v.eqs, x = defaultRate ∨ x = e.rate) →
      (∀ x ∈ (v.apply s).filters, x = defaultRate ∨ x = e.rate) ∧
        ∀ x ∈ (v.apply s).eqs, x = defaultRate ∨ x = e.rate :=
    fun s v hv => ⟨setMaxFilters_either hv.1, setMaxFilters_either hv.2⟩
  cases o with
  | setSampleRate r =>
    simp only [PerVoice.step, Option.some.injEq] at hs
    subst hs
    intro v hv
    obtain ⟨v', _, rfl⟩ := List.mem_map.mp hv
    constructor <;>
      · intro x hx; obtain ⟨_, _, rfl⟩ := List.mem_map.mp hx; exact Or.inr rfl
  | setNumVoices n =>
    simp only [PerVoice.step, Option.some.injEq] at hs
    subst hs
    split
    · exact h
    · intro v hv
      simp only [Engine.resetVoices, List.map_replicate] at hv
      rw [List.eq_of_mem_replicate hv]
      apply happ
      constructor <;>
        · intro x hx; obtain ⟨_, _, rfl⟩ := List.mem_map.mp hx; exact Or.inr rfl
  | load fx rs output =>
    simp only [PerVoice.step, Option.some.injEq] at hs
    subst hs
    intro v hv
    simp only [Engine.apply, Engine.clear] at hv
    obtain ⟨v1, h1, rfl⟩ := List.mem_map.mp hv
    obtain ⟨v2, h2, rfl⟩ := List.mem_map.mp h1
    exact happ _ _ (h v2 h2)
  | loadFails fx =>
    simp only [PerVoice.step, Option.some.injEq] at hs
    subst hs
    intro v hv
    simp only [Engine.clear] at hv
    obtain ⟨v2, h2, rfl⟩ := List.mem_map.mp hv
    exact h v2 h2
  | addFilter i =>
    simp only [PerVoice.step] at hs
    split at hs
    · cases hs; exact h
    · cases hs
      intro v hv
      obtain ⟨v2, h2, rfl⟩ := List.mem_map.mp hv
      exact happ _ _ (h v2 h2)
  | addEq i =>
    simp only [PerVoice.step] at hs
    split at hs
    · cases hs; exact h
    · cases hs
      intro v hv
      obtain ⟨v2, h2, rfl⟩ := List.mem_map.mp hv
      exact happ _ _ (h v2 h2)
  | start k i =>
    simp only [PerVoice.step] at hs
    split at hs
    · rename_i v r hv hr
      split at hs
      · cases hs
        intro w hw
        rcases List.mem_or_eq_of_mem_set hw with hw | rfl
        · exact h w hw
        · exact h v (List.mem_of_getElem? hv)
      · cases hs
    · cases hs; exact h
  | stop k =>
    simp only [PerVoice.step] at hs
    split at hs
    · rename_i v hv
      cases hs
      intro w hw
      rcases List.mem_or_eq_of_mem_set hw with hw | rfl
      · exact h w hw
      · exact h v (List.mem_of_getElem? hv)
    · cases hs; exact h
  | render =>
    simp only [PerVoice.step] at hs
    split at hs
    · cases hs; exact h
    · cases hs

lemma start_either : FiltersEither Engine.start := by
  unfold FiltersEither
  decide +kernel

/-- C94, filters and equalizers after any history: each runs at the engine's rate or at 48 kHz;
so an engine that runs at 48 kHz has them all right. -/
theorem filters_either (ops : List Op) (e : Engine) (h : run Engine.start ops = some e) :
    (∀ v ∈ e.voices, (∀ x ∈ v.filters, x = 48000 ∨ x = e.rate) ∧
      ∀ x ∈ v.eqs, x = 48000 ∨ x = e.rate) ∧
    (e.rate = 48000 → ∀ v ∈ e.voices, FiltersAt e.rate v) := by
  have hi : FiltersEither e := run_induct (fun _ o _ he hs => he.step o hs) start_either h
  refine ⟨hi, fun hr v hv => ⟨fun x hx => ?_, fun x hx => ?_⟩⟩
  · rcases (hi v hv).1 x hx with h | h
    · rw [h, hr]; rfl
    · exact h
  · rcases (hi v hv).2 x hx with h | h
    · rw [h, hr]; rfl
    · exact h

/-- The number of filters per voice an instrument must ask for to keep those of the voices. -/
lemma setMaxFilters_keep {l : List ℚ} : setMaxFilters l.length l = l := by simp [setMaxFilters]

/-- An instrument whose only region has one filter. -/
def oneFilter : Need := { Need.none with filters := 1 }

/-- C94 is violated: set the engine to 44.1 kHz, load an instrument with one filter, and every
filter runs as if the rate were 48 kHz; changing the number of voices does not mend it. -/
theorem filter_rate_violated : ∃ (ops : List Op) (e : Engine),
    run Engine.start (.setSampleRate 44100 :: ops) = some e ∧ e.rate = 44100 ∧
      ∀ v ∈ e.voices, v.filters = [48000] := by
  refine ⟨[.load [] [oneFilter] 0, .setNumVoices 8], _, rfl, rfl, ?_⟩
  decide +kernel

/-! ### C102: counts -/

/-- The settings cover what a region asks for. -/
structure Covers (s : Settings) (n : Need) : Prop where
  filters : n.filters ≤ s.filters
  eqs : n.eqs ≤ s.eqs
  lfos : n.lfos ≤ s.lfos
  egs : n.egs ≤ s.egs
  pitchEG : n.pitchEG = true → s.pitchEG = true
  filterEG : n.filterEG = true → s.filterEG = true
  ampLFO : n.ampLFO = true → s.ampLFO = true
  pitchLFO : n.pitchLFO = true → s.pitchLFO = true
  filLFO : n.filLFO = true → s.filLFO = true

lemma Covers.trans {a b c : Need} (h1 : Covers a b) (h2 : Covers b c) : Covers a c :=
  ⟨h2.filters.trans h1.filters, h2.eqs.trans h1.eqs, h2.lfos.trans h1.lfos, h2.egs.trans h1.egs,
    h1.pitchEG ∘ h2.pitchEG, h1.filterEG ∘ h2.filterEG, h1.ampLFO ∘ h2.ampLFO,
    h1.pitchLFO ∘ h2.pitchLFO, h1.filLFO ∘ h2.filLFO⟩

lemma countNeeds_covers (rs : List Need) : ∀ n ∈ rs, Covers (countNeeds rs) n := by
  have key : ∀ (rs : List Need) (s : Settings),
      Covers (rs.foldl (fun s r =>
        ⟨max s.filters r.filters, max s.eqs r.eqs, max s.lfos r.lfos, max s.egs r.egs,
          s.pitchEG || r.pitchEG, s.filterEG || r.filterEG, s.ampLFO || r.ampLFO,
          s.pitchLFO || r.pitchLFO, s.filLFO || r.filLFO⟩) s) s ∧
      ∀ n ∈ rs, Covers (rs.foldl (fun s r =>
        ⟨max s.filters r.filters, max s.eqs r.eqs, max s.lfos r.lfos, max s.egs r.egs,
          s.pitchEG || r.pitchEG, s.filterEG || r.filterEG, s.ampLFO || r.ampLFO,
          s.pitchLFO || r.pitchLFO, s.filLFO || r.filLFO⟩) s) n := by
    intro rs
    induction rs with
    | nil =>
      intro s
      exact ⟨⟨le_rfl, le_rfl, le_rfl, le_rfl, id, id, id, id, id⟩, by simp⟩
    | cons r rs ih =>
      intro s
      simp only [List.foldl_cons]
      obtain ⟨h1, h2⟩ := ih ⟨max s.filters r.filters, max s.eqs r.eqs, max s.lfos r.lfos,
        max s.egs r.egs, s.pitchEG || r.pitchEG, s.filterEG || r.filterEG, s.ampLFO || r.ampLFO,
        s.pitchLFO || r.pitchLFO, s.filLFO || r.filLFO⟩
      refine ⟨h1.trans ?_, fun n hn => ?_⟩
      · constructor <;> simp +contextual
      · rcases List.mem_cons.mp hn with rfl | hn
        · refine h1.trans ?_
          constructor <;> simp +contextual
        · exact h2 n hn
  exact (key rs Need.none).2

/-- A voice has exactly what the settings say. -/
structure Equipped (s : Settings) (v : Voice) : Prop where
  filters : v.filters.length = s.filters
  eqs : v.eqs.length = s.eqs
  lfos : v.lfos.length = s.lfos
  egs : v.egs.length = s.egs
  pitchEG : v.pitchEG = s.pitchEG
  filterEG : v.filterEG = s.filterEG
  ampLFO : v.ampLFO.isSome = s.ampLFO
  pitchLFO : v.pitchLFO.isSome = s.pitchLFO
  filLFO : v.filLFO.isSome = s.filLFO

lemma Equipped.of_apply (s : Settings) (v : Voice) : Equipped s (v.apply s) where
  filters := by simp only [Voice.apply, setMaxFilters]; split <;> simp_all
  eqs := by simp only [Voice.apply, setMaxFilters]; split <;> simp_all
  lfos := by simp [Voice.apply]
  egs := by simp [Voice.apply]
  pitchEG := rfl
  filterEG := rfl
  ampLFO := by simp only [Voice.apply]; cases s.ampLFO <;> rfl
  pitchLFO := by simp only [Voice.apply]; cases s.pitchLFO <;> rfl
  filLFO := by simp only [Voice.apply]; cases s.filLFO <;> rfl

lemma Equipped.set {s : Settings} {v : Voice} (h : Equipped s v) (r : ℚ) :
    Equipped s (v.setSampleRate r) := by
  constructor <;> simp [Voice.setSampleRate, h.filters, h.eqs, h.lfos, h.egs, h.pitchEG,
    h.filterEG, h.ampLFO, h.pitchLFO, h.filLFO]

lemma Equipped.canStart {s : Settings} {v : Voice} (h : Equipped s v) {n : Need}
    (hc : Covers s n) : canStart n v = true := by
  simp only [PerVoice.canStart, Bool.and_eq_true, decide_eq_true_eq, Bool.or_eq_true,
    Bool.not_eq_true', h.filters, h.eqs, h.lfos, h.egs, h.pitchEG, h.filterEG, h.ampLFO,
    h.pitchLFO, h.filLFO]
  have b : ∀ {p q : Bool}, (p = true → q = true) → p = false ∨ q = true := by
    intro p q hpq; cases p <;> simp_all
  exact ⟨⟨⟨⟨⟨⟨⟨⟨hc.filters, hc.eqs⟩, hc.lfos⟩, hc.egs⟩, b hc.pitchEG⟩, b hc.filterEG⟩,
    b hc.ampLFO⟩, b hc.pitchLFO⟩, b hc.filLFO⟩

/-- The state every edit-free history keeps. -/
structure Sound (e : Engine) : Prop where
  voices : ∀ v ∈ e.voices, Equipped e.settings v
  regions : ∀ n ∈ e.regions, Covers e.settings n
  playing : ∀ v ∈ e.voices, ∀ i, v.region = some i → ∀ n, e.regions[i]? = some n →
    ∀ g ∈ v.egs.take n.egs, g.ready = true

/-- The two messages that change what a region asks for. -/
def Op.edits : Op → Bool
  | .addFilter _ => true
  | .addEq _ => true
  | _ => false

lemma Sound.step {e : Engine} (h : Sound e) (o : Op) (ho : o.edits = false) :
    ∃ e', step e o = some e' ∧ Sound e' := by
  cases o with
  | setSampleRate r =>
    refine ⟨_, rfl, ?_, h.regions, ?_⟩
    · intro v hv
      obtain ⟨v', h1, rfl⟩ := List.mem_map.mp hv
      exact (h.voices v' h1).set r
    · intro v hv i hi n hn g hg
      obtain ⟨v', h1, rfl⟩ := List.mem_map.mp hv
      simp only [Voice.setSampleRate, ← List.map_take] at hg
      obtain ⟨g', h2, rfl⟩ := List.mem_map.mp hg
      exact h.playing v' h1 i hi n hn g' h2
  | setNumVoices n =>
    refine ⟨_, rfl, ?_⟩
    split
    · exact h
    · refine ⟨?_, h.regions, ?_⟩
      · intro v hv
        obtain ⟨v', _, rfl⟩ := List.mem_map.mp hv
        exact Equipped.of_apply _ _
      · intro v hv i hi
        simp only [Engine.resetVoices, List.map_replicate] at hv
        rw [List.eq_of_mem_replicate hv] at hi
        cases hi
  | load fx rs output =>
    refine ⟨_, rfl, ?_, countNeeds_covers rs, ?_⟩
    · intro v hv
      obtain ⟨v', _, rfl⟩ := List.mem_map.mp hv
      exact Equipped.of_apply _ _
    · intro v hv i hi
      obtain ⟨v1, h1, rfl⟩ := List.mem_map.mp hv
      obtain ⟨v2, _, rfl⟩ := List.mem_map.mp h1
      cases hi
  | loadFails fx =>
    refine ⟨_, rfl, ?_, (by intro n hn; cases hn), ?_⟩
    · intro v hv
      obtain ⟨v2, h2, rfl⟩ := List.mem_map.mp hv
      have := h.voices v2 h2
      exact ⟨this.filters, this.eqs, this.lfos, this.egs, this.pitchEG, this.filterEG,
        this.ampLFO, this.pitchLFO, this.filLFO⟩
    · intro v hv i hi
      obtain ⟨v2, h2, rfl⟩ := List.mem_map.mp hv
      cases hi
  | addFilter i => cases ho
  | addEq i => cases ho
  | start k i =>
    simp only [PerVoice.step]
    cases hv : e.voices[k]? with
    | none => exact ⟨e, rfl, h⟩
    | some v =>
      cases hr : e.regions[i]? with
      | none => exact ⟨e, rfl, h⟩
      | some r =>
        have hq := h.voices v (List.mem_of_getElem? hv)
        have hc := hq.canStart (h.regions r (List.mem_of_getElem? hr))
        simp only [hc, if_true]
        refine ⟨_, rfl, ?_, h.regions, ?_⟩
        · intro w hw
          rcases List.mem_or_eq_of_mem_set hw with hw | rfl
          · exact h.voices w hw
          · exact ⟨hq.filters, hq.eqs, hq.lfos, by simp [ready, hq.egs], hq.pitchEG, hq.filterEG,
              hq.ampLFO, hq.pitchLFO, hq.filLFO⟩
        · intro w hw j hj n hn g hg
          rcases List.mem_or_eq_of_mem_set hw with hw | rfl
          · exact h.playing w hw j hj n hn g hg
          · cases hj
            rw [show e.regions[i]? = some n from hn] at hr
            cases hr
            obtain ⟨m, hm, rfl⟩ := List.getElem_of_mem hg
            have hm' : m < r.egs := by simp only [List.length_take] at hm; omega
            simp only [ready, List.getElem_take, List.getElem_mapIdx, hm', if_true]
  | stop k =>
    simp only [PerVoice.step]
    cases hv : e.voices[k]? with
    | none => exact ⟨e, rfl, h⟩
    | some v =>
      have hq := h.voices v (List.mem_of_getElem? hv)
      refine ⟨_, rfl, ?_, h.regions, ?_⟩
      · intro w hw
        rcases List.mem_or_eq_of_mem_set hw with hw | rfl
        · exact h.voices w hw
        · exact ⟨hq.filters, hq.eqs, hq.lfos, hq.egs, hq.pitchEG, hq.filterEG, hq.ampLFO,
            hq.pitchLFO, hq.filLFO⟩
      · intro w hw j hj n hn g hg
        rcases List.mem_or_eq_of_mem_set hw with hw | rfl
        · exact h.playing w hw j hj n hn g hg
        · cases hj
  | render =>
    refine ⟨e, ?_, h⟩
    simp only [PerVoice.step]
    rw [if_pos]
    rw [List.all_eq_true]
    intro v hv
    cases hi : v.region with
    | none => rfl
    | some i =>
      cases hn : e.regions[i]? with
      | none => simp only [hn]
      | some n =>
        simp only [hn, canRender, Bool.and_eq_true, List.all_eq_true]
        exact ⟨(h.voices v hv).canStart (h.regions n (List.mem_of_getElem? hn)),
          h.playing v hv i hi n hn⟩

lemma start_sound : Sound Engine.start := by
  refine ⟨?_, (by intro n hn; cases hn), ?_⟩
  · intro v hv
    simp only [Engine.start, Engine.resetVoices] at hv
    obtain ⟨v', _, rfl⟩ := List.mem_map.mp hv
    exact Equipped.of_apply _ _
  · intro v hv i hi
    simp only [Engine.start, Engine.resetVoices, List.map_replicate] at hv
    rw [List.eq_of_mem_replicate hv] at hi
    cases hi

/-- C102, the part that holds: no history of rate changes, voice-count changes, loads, failed
loads, notes and blocks reaches for a filter, equalizer, LFO or envelope a voice does not have,
or for an envelope without description.  Missing: the two edit messages, see
`add_filter_violated`. -/
theorem equipment_partial (ops : List Op) (h : ∀ o ∈ ops, o.edits = false) :
    ∃ e, run Engine.start ops = some e := by
  have key : ∀ (ops : List Op) (e : Engine), Sound e → (∀ o ∈ ops, o.edits = false) →
      ∃ e', run e ops = some e' := by
    intro ops
    induction ops with
    | nil => intro e _ _; exact ⟨e, rfl⟩
    | cons o os ih =>
      intro e he ho
      obtain ⟨e1, h1, h2⟩ := he.step o (ho o (by simp))
      obtain ⟨e2, h3⟩ := ih e1 h2 (fun o h => ho o (by simp [h]))
      exact ⟨e2, by simp only [run, h1]; exact h3⟩
  exact key ops Engine.start start_sound h

/-- Non-vacuity: a load with filters, LFOs and envelopes, notes, a rate change, a second load. -/
example : ∃ e, run Engine.start
    [.load [⟨2, [0, 3], some 1⟩] [{ Need.none with filters := 4, egs := 2 }, oneFilter] 1,
      .start 0 0, .start 1 1, .render, .setSampleRate 96000, .render, .stop 0, .setNumVoices 12,
      .load [] [{ Need.none with lfos := 3 }] 0, .start 3 0, .render] = some e :=
  equipment_partial _ (by decide)

/-- C102 is violated by `/region0/add_filter`: the count of filters per voice is raised to the
number of *envelopes* of the region, so the next note of that region sets up a filter its voice
does not have. -/
theorem add_filter_violated :
    run Engine.start [.load [] [Need.none] 0, .addFilter 0, .start 0 0] = Option.none := by
  decide +kernel

/-- C102 is violated by `/region0/add_eq` in the same way. -/
theorem add_eq_violated :
    run Engine.start [.load [] [Need.none] 0, .addEq 0, .start 0 0] = Option.none := by
  decide +kernel

/-- C102 is violated even for other regions: while a voice with an envelope plays, adding a
filter to a different region replaces the voice's envelopes by ones without description, and the
next block follows a null pointer. -/
theorem edit_while_playing_violated :
    run Engine.start [.load [] [{ Need.none with egs := 1 }, oneFilter] 0, .start 0 0, .render,
      .addFilter 1, .render] = Option.none := by
  decide +kernel

/-- A history with rate changes on either side of a load and of a change of the voice count. -/
def rateHistory : List Op :=
  [.setSampleRate 44100,
    .load [⟨1, [0, 3], some 1⟩] [{ Need.none with filters := 4, egs := 2, lfos := 1 }] 1,
    .start 0 0, .setNumVoices 3, .start 2 0]

/-- Non-vacuity of `rates_follow_partial`, `filters_either` and `filters_after_set`: voices,
filters and effects exist. -/
example : ∃ e, run Engine.start (rateHistory ++ [.setSampleRate 96000]) = some e ∧
    EngineAt e ∧ (∀ v ∈ e.voices, FiltersAt e.rate v) ∧ e.rate = 96000 := by
  obtain ⟨e, h⟩ := equipment_partial (rateHistory ++ [.setSampleRate 96000]) (by decide)
  have := filters_after_set _ _ _ h
  exact ⟨e, h, rates_follow_partial _ _ h, this.2, this.1⟩

example : ((run Engine.start (rateHistory ++ [.setSampleRate 96000])).map (fun e =>
    (e.voices.map (fun v => (v.filters, v.lfos)), e.buses.take e.numOutputs))) =
    some (List.replicate 7 ([96000, 96000, 96000, 96000], [96000]),
      [[some []], [some [], some [96000], Option.none, some []]]) := by
  decide +kernel

end Verif.PerVoice
