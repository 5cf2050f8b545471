import Verif.Modulations.Props

/-!
C145, continued: the envelopes and LFOs of the first version of the format, aftertouch, the settings of LFOs; opcodes with other
names do nothing to modulations; and the depth which a region ends with, from its opcodes.
-/
namespace Verif.Modulations
open Verif.Opcode
open Verif.ModMatrix (ModKey ModId)
open Verif.Connections (Op Param)

/-! ### Specification -/

/-- The modulators which have one parameter each. -/
inductive Old where
  | pitchEG | filterEG | ampLFO | pitchLFO | filterLFO
deriving DecidableEq

/-- Its name. -/
def Old.text : Old → Text
  | .pitchEG => "pitcheg".toList
  | .filterEG => "fileg".toList
  | .ampLFO => "amplfo".toList
  | .pitchLFO => "pitchlfo".toList
  | .filterLFO => "fillfo".toList

/-- It is an LFO. -/
def Old.isLFO : Old → Bool
  | .pitchEG | .filterEG => false
  | _ => true

/-- The modulator in the modulation matrix. -/
def Old.source (region : Nat) : Old → ModKey
  | .pitchEG => ⟨.PitchEG, some region, 0, 0⟩
  | .filterEG => ⟨.FilEG, some region, 0, 0⟩
  | .ampLFO => ⟨.AmpLFO, some region, 0, 0⟩
  | .pitchLFO => ⟨.PitchLFO, some region, 0, 0⟩
  | .filterLFO => ⟨.FilLFO, some region, 0, 0⟩

/-- The parameter it modulates: the filter is the first one. -/
def Old.target : Old → Parameter
  | .pitchEG | .pitchLFO => .pitch
  | .filterEG | .filterLFO => .cutoff 1
  | .ampLFO => .volume

/-- Its depth in the modulation matrix. -/
def Old.depth (region : Nat) : Old → ModKey
  | .pitchEG => ⟨.PitchEGDepth, some region, 0, 0⟩
  | .filterEG => ⟨.FilEGDepth, some region, 0, 0⟩
  | .ampLFO => ⟨.AmpLFODepth, some region, 0, 0⟩
  | .pitchLFO => ⟨.PitchLFODepth, some region, 0, 0⟩
  | .filterLFO => ⟨.FilLFODepth, some region, 0, 0⟩

/-- The frequency of an LFO in the modulation matrix. -/
def Old.freq (region : Nat) : Old → Option ModKey
  | .pitchEG | .filterEG => none
  | .ampLFO => some ⟨.AmpLFOFrequency, some region, 0, 0⟩
  | .pitchLFO => some ⟨.PitchLFOFrequency, some region, 0, 0⟩
  | .filterLFO => some ⟨.FilLFOFrequency, some region, 0, 0⟩

/-- The two kinds of aftertouch. -/
inductive Aftertouch where
  | channel | poly

/-- Its word. -/
def Aftertouch.text : Aftertouch → Text
  | .channel => "chanaft".toList
  | .poly => "polyaft".toList

/-- The aftertouch in the modulation matrix: that of the channel is of no region. -/
def Aftertouch.key (region : Nat) : Aftertouch → ModKey
  | .channel => ⟨.ChannelAftertouch, none, 0, 0⟩
  | .poly => ⟨.PolyAftertouch, some region, 0, 0⟩

/-- The settings of a numbered LFO which are modulated. -/
inductive Setting where
  | freq | beats | phase

/-- Its word. -/
def Setting.text : Setting → Text
  | .freq => "freq".toList
  | .beats => "beats".toList
  | .phase => "phase".toList

/-- The setting of LFO `k` in the modulation matrix. -/
def Setting.key (region k : Nat) : Setting → ModKey
  | .freq => ⟨.LFOFrequency, some region, k - 1, 0⟩
  | .beats => ⟨.LFOBeats, some region, k - 1, 0⟩
  | .phase => ⟨.LFOPhase, some region, k - 1, 0⟩

/-! ### First version -/

/-- The opcode `<modulator>_<word>`. -/
def oldName (o : Old) (t : Text) : Text := o.text ++ '_' :: t

/-- The entry of a modulator. -/
def Old.entry : Old → Classic
  | .pitchEG => ⟨"pitcheg_".toList, .PitchEG, .Pitch, .PitchEGDepth, .PitchEGDepth, false⟩
  | .filterEG => ⟨"fileg_".toList, .FilEG, .FilCutoff, .FilEGDepth, .FilEGDepth, false⟩
  | .ampLFO => ⟨"amplfo_".toList, .AmpLFO, .Volume, .AmpLFODepth, .AmpLFOFrequency, true⟩
  | .pitchLFO => ⟨"pitchlfo_".toList, .PitchLFO, .Pitch, .PitchLFODepth, .PitchLFOFrequency, true⟩
  | .filterLFO => ⟨"fillfo_".toList, .FilLFO, .FilCutoff, .FilLFODepth, .FilLFOFrequency, true⟩

theorem old_find (o : Old) (rest : Text) : classics.find? (fun m => m.name.isPrefixOf (o.text ++ '_' :: rest)) = some o.entry := by
  cases o <;> rfl

/-- Such an opcode goes to the parser of the modulator. -/
theorem effects_old (region lfos : Nat) (o : Old) (name value rest : Text) (hname : trim name = o.text ++ '_' :: rest)
    (hd : direct.find? (fun e => anyCc e.letters (Loader.seen name).1) = none)
    (ha : (Loader.seen name).1 ≠ "cutoff&_chanaft".toList) (hp : (Loader.seen name).1 ≠ "cutoff&_polyaft".toList) :
    effects region lfos name value = classic region o.entry name value := by
  have hc := old_find o rest
  rw [← hname] at hc
  unfold effects
  simp only [hd, if_neg ha, if_neg hp, hc]

theorem word_append {a b : Text} (ha : Word a) (hb : Word b) : Word (a ++ b) := by
  intro c hc
  rcases List.mem_append.mp hc with hc | hc
  · exact ha c hc
  · exact hb c hc

theorem old_text_word (o : Old) : Word o.text := by
  cases o with
  | pitchEG => exact (by decide +kernel : Word "pitcheg".toList)
  | filterEG => exact (by decide +kernel : Word "fileg".toList)
  | ampLFO => exact (by decide +kernel : Word "amplfo".toList)
  | pitchLFO => exact (by decide +kernel : Word "pitchlfo".toList)
  | filterLFO => exact (by decide +kernel : Word "fillfo".toList)

theorem old_entry_isLFO (o : Old) : o.entry.isLFO = o.isLFO := by cases o <;> rfl

theorem old_word (o : Old) {t : Text} (ht : Word t) : Word (oldName o t) := by
  unfold oldName
  exact word_append (old_text_word o) (word_append (a := ['_']) (by decide +kernel) ht)

theorem old_seen (o : Old) {t : Text} (ht : Word t) :
    Loader.seen (oldName o t) = (oldName o t, []) ∧ trim (oldName o t) = oldName o t := by
  have h := plain_none (old_word o ht)
  have a := seen_write [] _ h
  have b := trim_write [] _ h
  simp only [write, marked, List.map_nil] at a b
  exact ⟨a, b⟩

theorem old_seen_cc (o : Old) {t : Text} (ht : Word t) (w : Category × Text) (hw : w ∈ words) (n : Nat) (hn : n < 65536) :
    Loader.seen (ccName (oldName o t) w n) = (oldName o t ++ (w.2 ++ ['&']), [n]) ∧
    trim (ccName (oldName o t) w n) = ccName (oldName o t) w n ∧
    ∀ percent value d, genericCc percent (ccName (oldName o t) w n) value d = [.cc n d (said percent w.1 value)] := by
  have h := plain_none (old_word o ht)
  obtain ⟨g1, _, g3, _⟩ := ccName_facts [] _ h w hw n hn
  have g := genericCc_said [] _ h w hw n hn
  simp only [write, marked, List.map_nil, List.nil_append] at g1 g3 g
  exact ⟨g1, g3, g⟩

/-- The words without a controller. -/
def oldWords : List Text := ["depth", "veltodepth", "depthchanaft", "depthpolyaft", "freqchanaft", "freqpolyaft"].map String.toList

theorem old_direct (o : Old) : ∀ t ∈ oldWords, Word t ∧ direct.find? (fun e => anyCc e.letters (oldName o t)) = none ∧
    oldName o t ≠ "cutoff&_chanaft".toList ∧ oldName o t ≠ "cutoff&_polyaft".toList := by
  cases o <;> decide +kernel

theorem old_direct_cc (o : Old) : ∀ t ∈ ["depth".toList, "freq".toList], Word t ∧ ∀ w ∈ words,
    direct.find? (fun e => anyCc e.letters (oldName o t ++ (w.2 ++ ['&']))) = none ∧
    oldName o t ++ (w.2 ++ ['&']) ≠ "cutoff&_chanaft".toList ∧ oldName o t ++ (w.2 ++ ['&']) ≠ "cutoff&_polyaft".toList := by
  cases o <;> decide +kernel

theorem effects_old_word (region lfos : Nat) (o : Old) (t value : Text) (ht : t ∈ oldWords) :
    effects region lfos (oldName o t) value = classic region o.entry (oldName o t) value := by
  obtain ⟨h1, h2, h3, h4⟩ := old_direct o t ht
  obtain ⟨s1, s2⟩ := old_seen o h1
  refine effects_old region lfos o _ value t (by rw [s2]; unfold oldName; rfl) ?_ ?_ ?_
  · rw [s1]; exact h2
  · rw [s1]; exact h3
  · rw [s1]; exact h4

theorem effects_old_cc (region lfos : Nat) (o : Old) (t value : Text) (ht : t ∈ ["depth".toList, "freq".toList]) (w : Category × Text)
    (hw : w ∈ words) (n : Nat) (hn : n < 65536) :
    effects region lfos (ccName (oldName o t) w n) value = classic region o.entry (ccName (oldName o t) w n) value := by
  obtain ⟨h1, h⟩ := old_direct_cc o t ht
  obtain ⟨h2, h3, h4⟩ := h w hw
  obtain ⟨s1, s2, _⟩ := old_seen_cc o h1 w hw n hn
  refine effects_old region lfos o _ value (t ++ w.2 ++ decimal n) ?_ ?_ ?_ ?_
  · rw [s2]; unfold ccName oldName; simp only [List.append_assoc, List.cons_append]
  · rw [s1]; exact h2
  · rw [s1]; exact h3
  · rw [s1]; exact h4

theorem old_decide (o : Old) (w : Category × Text) (hw : w ∈ words) :
    (oldName o "depth".toList ++ (w.2 ++ ['&']) ≠ o.entry.name ++ "depth".toList) ∧
    (oldName o "depth".toList ++ (w.2 ++ ['&']) ≠ o.entry.name ++ "veltodepth".toList) ∧
    anyCc (o.entry.name ++ "depth".toList) (oldName o "depth".toList ++ (w.2 ++ ['&'])) = true ∧
    oldName o "depth".toList ++ (w.2 ++ ['&']) ∉ ["delay".toList, "fade".toList, "freq".toList, "wave".toList].map (o.entry.name ++ ·) ∧
    oldName o "freq".toList ++ (w.2 ++ ['&']) ∉ ["delay".toList, "fade".toList, "freq".toList, "wave".toList].map (o.entry.name ++ ·) ∧
    oldName o "freq".toList ++ (w.2 ++ ['&']) ≠ o.entry.name ++ "depth".toList ∧
    ¬ anyCc (o.entry.name ++ "depth".toList) (oldName o "freq".toList ++ (w.2 ++ ['&'])) = true ∧
    oldName o "freq".toList ++ (w.2 ++ ['&']) ≠ o.entry.name ++ "depthchanaft".toList ∧
    oldName o "freq".toList ++ (w.2 ++ ['&']) ≠ o.entry.name ++ "depthpolyaft".toList ∧
    anyCc (o.entry.name ++ "freq".toList) (oldName o "freq".toList ++ (w.2 ++ ['&'])) = true := by
  revert w
  cases o <;> decide +kernel

/-- **Depth**: `pitcheg_depth`, `fileg_depth`, `amplfo_depth`, `pitchlfo_depth` and `fillfo_depth` say the depth of the modulation of
the pitch, the cutoff of the first filter or the volume. -/
theorem old_depth_opcode (region lfos : Nat) (o : Old) (value : Text) :
    effects region lfos (oldName o "depth".toList) value =
      [.depth (o.source region) (o.target.key region) (amount false value), .make (o.source region) (o.target.key region)] := by
  rw [effects_old_word region lfos o _ value (by decide +kernel), ← readMod_amount]
  obtain ⟨s1, _⟩ := old_seen o (t := "depth".toList) (by decide +kernel)
  unfold classic
  rw [old_entry_isLFO]
  cases o with
  | pitchEG | filterEG =>
      rw [if_neg (by decide)]; unfold classicEG; rw [s1]
      rw [if_pos (by decide +kernel)]
      rfl
  | ampLFO | pitchLFO | filterLFO =>
      rw [if_pos (show Old.isLFO _ = true from rfl)]; unfold classicLFO; rw [s1]
      rw [if_neg (by decide +kernel)]
      rw [if_pos (by decide +kernel)]
      rfl

/-- **Velocity**: `pitcheg_veltodepth` and `fileg_veltodepth` say how much the velocity adds to that depth. -/
theorem old_velocity_opcode (region lfos : Nat) (o : Old) (ho : o.isLFO = false) (value : Text) :
    effects region lfos (oldName o "veltodepth".toList) value =
      [.vel (o.source region) (o.target.key region) (amount false value), .make (o.source region) (o.target.key region)] := by
  rw [effects_old_word region lfos o _ value (by decide +kernel), ← readMod_amount]
  obtain ⟨s1, _⟩ := old_seen o (t := "veltodepth".toList) (by decide +kernel)
  unfold classic
  rw [old_entry_isLFO]
  cases o with
  | ampLFO | pitchLFO | filterLFO => cases ho
  | pitchEG | filterEG =>
      rw [if_neg (by decide)]; unfold classicEG; rw [s1]
      rw [if_neg (by decide +kernel)]
      rw [if_pos (by decide +kernel)]
      rfl

/-- **Depth and controllers**. -/
theorem old_depth_cc_opcode (region lfos : Nat) (o : Old) (w : Category × Text) (hw : w ∈ words) (n : Nat) (hn : n < 65536) (value : Text) :
    effects region lfos (ccName (oldName o "depth".toList) w n) value =
      [.depthMod (o.source region) (o.target.key region) (o.depth region), .cc n (o.depth region) (said false w.1 value),
        .make (o.source region) (o.target.key region)] := by
  rw [effects_old_cc region lfos o _ value (by decide +kernel) w hw n hn]
  obtain ⟨s1, _, s3⟩ := old_seen_cc o (t := "depth".toList) (by decide +kernel) w hw n hn
  have q := old_decide o w hw
  unfold classic
  rw [old_entry_isLFO]
  cases o with
  | pitchEG | filterEG =>
      rw [if_neg (by decide)]; unfold classicEG; rw [s1, s3]
      rw [if_neg q.1, if_neg q.2.1, if_pos q.2.2.1]
      rfl
  | ampLFO | pitchLFO | filterLFO =>
      rw [if_pos (show Old.isLFO _ = true from rfl)]; unfold classicLFO; rw [s1, s3]
      rw [if_neg q.2.2.2.1, if_neg q.1, if_pos q.2.2.1]
      rfl

/-- **Frequency and controllers**. -/
theorem old_freq_cc_opcode (region lfos : Nat) (o : Old) (f : ModKey) (hf : o.freq region = some f) (w : Category × Text) (hw : w ∈ words)
    (n : Nat) (hn : n < 65536) (value : Text) :
    effects region lfos (ccName (oldName o "freq".toList) w n) value =
      [.cc n f (said false w.1 value), .make (o.source region) (o.target.key region)] := by
  rw [effects_old_cc region lfos o _ value (by decide +kernel) w hw n hn]
  obtain ⟨s1, _, s3⟩ := old_seen_cc o (t := "freq".toList) (by decide +kernel) w hw n hn
  obtain ⟨_, _, _, _, q1, q2, q3, q4, q5, q6⟩ := old_decide o w hw
  unfold classic
  rw [old_entry_isLFO]
  cases o with
  | pitchEG | filterEG => cases hf
  | ampLFO | pitchLFO | filterLFO =>
      cases hf
      rw [if_pos (show Old.isLFO _ = true from rfl)]; unfold classicLFO; rw [s1]
      rw [if_neg q1, if_neg q2, if_neg q3, if_neg q4, if_neg q5, if_pos q6, s3]
      rfl

/-- **Depth and aftertouch**. -/
theorem old_depth_aftertouch_opcode (region lfos : Nat) (o : Old) (ho : o.isLFO = true) (a : Aftertouch) (value : Text) :
    effects region lfos (oldName o ("depth".toList ++ a.text)) value =
      [.depthMod (o.source region) (o.target.key region) (o.depth region), .depth (a.key region) (o.depth region) (amount false value),
        .make (o.source region) (o.target.key region)] := by
  rw [effects_old_word region lfos o _ value (by cases a <;> decide +kernel), ← readMod_amount]
  obtain ⟨s1, _⟩ := old_seen o (t := "depth".toList ++ a.text) (by cases a <;> decide +kernel)
  unfold classic
  rw [old_entry_isLFO]
  cases o with
  | pitchEG | filterEG => cases ho
  | ampLFO | pitchLFO | filterLFO =>
    rw [if_pos (show Old.isLFO _ = true from rfl)]; unfold classicLFO; rw [s1]
    cases a with
    | channel =>
      iterate 3 rw [if_neg (by decide +kernel)]
      rw [if_pos (by decide +kernel)]
      rfl
    | poly =>
      iterate 4 rw [if_neg (by decide +kernel)]
      rw [if_pos (by decide +kernel)]
      rfl

/-- **Frequency and aftertouch**. -/
theorem old_freq_aftertouch_opcode (region lfos : Nat) (o : Old) (f : ModKey) (hf : o.freq region = some f) (a : Aftertouch) (value : Text) :
    effects region lfos (oldName o ("freq".toList ++ a.text)) value =
      [.depth (a.key region) f (amount false value), .make (o.source region) (o.target.key region)] := by
  rw [effects_old_word region lfos o _ value (by cases a <;> decide +kernel), ← readMod_amount]
  obtain ⟨s1, _⟩ := old_seen o (t := "freq".toList ++ a.text) (by cases a <;> decide +kernel)
  unfold classic
  rw [old_entry_isLFO]
  cases o with
  | pitchEG | filterEG => cases hf
  | ampLFO | pitchLFO | filterLFO =>
    cases hf
    rw [if_pos (show Old.isLFO _ = true from rfl)]; unfold classicLFO; rw [s1]
    cases a with
    | channel =>
      iterate 6 rw [if_neg (by decide +kernel)]
      rw [if_pos (by decide +kernel)]
      rfl
    | poly =>
      iterate 7 rw [if_neg (by decide +kernel)]
      rw [if_pos (by decide +kernel)]
      rfl

/-! ### Aftertouch of filters, settings of LFOs, envelopes of frequencies -/

theorem aftertouch_word : ∀ a : Aftertouch, Word ('_' :: a.text)
  | .channel => (by decide +kernel : Word "_chanaft".toList)
  | .poly => (by decide +kernel : Word "_polyaft".toList)

/-- **Cutoff and aftertouch**: `cutoffN_chanaft` and `cutoffN_polyaft`. -/
theorem cutoff_aftertouch_opcode (region lfos n : Nat) (h1 : 1 ≤ n) (h2 : n ≤ 256) (a : Aftertouch) (value : Text) :
    effects region lfos ((Parameter.cutoff n).text ++ '_' :: a.text) value =
      [.depth (a.key region) ((Parameter.cutoff n).key region) (amount false value)] := by
  have hpl : Plain [("cutoff".toList, n)] ('_' :: a.text) :=
    plain_one (by simp) (by decide +kernel) (by omega) (aftertouch_word a)
  have hn : (Parameter.cutoff n).text ++ '_' :: a.text = write [("cutoff".toList, n)] ('_' :: a.text) :=
    List.append_assoc "cutoff".toList (decimal n) ('_' :: a.text)
  have hs : Loader.seen ((Parameter.cutoff n).text ++ '_' :: a.text) = ("cutoff&_".toList ++ a.text, [n]) := by
    have e : "cutoff".toList ++ '&' :: '_' :: a.text = "cutoff&_".toList ++ a.text := by cases a <;> decide +kernel
    rw [hn, seen_write _ _ hpl, ← e]; rfl
  have ht := targetKey_eq region (.cutoff n) (fun m hm => by cases hm; exact ⟨h1, h2⟩)
  unfold effects
  rw [hs, ← readMod_amount]
  have ht' : targetKey region .FilCutoff true (some n) = some ((Parameter.cutoff n).key region) := ht
  cases a with
  | channel =>
    have hd : direct.find? (fun e => anyCc e.letters ("cutoff&_".toList ++ Aftertouch.channel.text)) = none := by decide +kernel
    simp only [hd, List.head?_cons, ht']
    rw [if_pos (by decide +kernel)]
    rfl
  | poly =>
    have hd : direct.find? (fun e => anyCc e.letters ("cutoff&_".toList ++ Aftertouch.poly.text)) = none := by decide +kernel
    simp only [hd, List.head?_cons, ht']
    rw [if_neg (by decide +kernel), if_pos (by decide +kernel)]
    rfl

/-- The opcode `lfoK_<setting>`. -/
def settingName (k : Nat) (e : Setting) : Text := "lfo".toList ++ decimal k ++ '_' :: e.text

theorem setting_find (e : Setting) : ∀ w ∈ words,
    direct.find? (fun x => anyCc x.letters ("lfo&_".toList ++ e.text ++ (w.2 ++ ['&']))) = none ∧
    (lfoOwn.find? (fun x => anyCc x.1 ("lfo&_".toList ++ e.text ++ (w.2 ++ ['&'])))) = some ("lfo&_".toList ++ e.text, (e.key 0 0).id) ∧
    "lfo&_".toList ++ e.text ++ (w.2 ++ ['&']) ≠ "cutoff&_chanaft".toList ∧
    "lfo&_".toList ++ e.text ++ (w.2 ++ ['&']) ≠ "cutoff&_polyaft".toList := by
  cases e <;> decide +kernel

/-- **Settings of LFOs and controllers**: `lfoK_freq_onccN`, `lfoK_beats_onccN`, `lfoK_phase_onccN` and their companions. -/
theorem setting_cc_opcode (region lfos k : Nat) (h1 : 1 ≤ k) (h2 : k ≤ 256) (e : Setting) (w : Category × Text) (hw : w ∈ words) (n : Nat)
    (hn : n < 65536) (value : Text) :
    effects region lfos (ccName (settingName k e) w n) value = [.cc n (e.key region k) (said false w.1 value)] := by
  have hpl : Plain [("lfo".toList, k)] ('_' :: e.text) :=
    plain_one (by simp) (by decide +kernel) (by omega) (by cases e <;> (simp only [Setting.text]; decide +kernel))
  have hnm : settingName k e = write [("lfo".toList, k)] ('_' :: e.text) := by
    simp only [settingName, write, List.append_assoc]
  obtain ⟨g1, g2, g3, g4⟩ := ccName_facts _ _ hpl w hw n hn
  rw [← hnm] at g1 g2 g3 g4
  have hL : marked [("lfo".toList, k)] ('_' :: e.text) ++ (w.2 ++ ['&']) = "lfo&_".toList ++ e.text ++ (w.2 ++ ['&']) := rfl
  rw [hL] at g1 g4
  obtain ⟨f1, f2, f3, f4⟩ := setting_find e w hw
  have hc := classics_none (.lfo k) (decimal k ++ ('_' :: e.text) ++ w.2 ++ decimal n)
  have hc' : classics.find? (fun m => m.name.isPrefixOf (trim (ccName (settingName k e) w n))) = none := by
    rw [g3, ← hc, hnm]
    unfold ccName
    simp only [write, List.append_assoc, Modulator.word]
  have hpre : "lfo&_".toList.isPrefixOf (letterOnlyName (trim (ccName (settingName k e) w n))) = true := by
    rw [g4, List.append_assoc]; rfl
  obtain ⟨j, rfl⟩ : ∃ j, k = j + 1 := ⟨k - 1, by omega⟩
  unfold effects
  simp only [g1, f1, if_neg f3, if_neg f4, hc', hpre, if_true]
  unfold lfoV2
  simp only [g1, f2, List.map_cons, List.map_nil, List.cons_append, List.head?_cons]
  rw [Nat.mod_eq_of_lt (show j < 256 by omega)]
  have := genericCc_said _ _ hpl w hw n hn false value (e.key region (j + 1))
  rw [← hnm] at this
  rw [← this]
  cases e <;> rfl

/-- The opcode `egK_freq_lfoN`. -/
def egFreqName (k n : Nat) : Text := "eg".toList ++ decimal k ++ ("_freq_lfo".toList ++ decimal n)

theorem egV2_freq (region lfos : Nat) (name value L : Text) (k n : Nat) (hs : Loader.seen name = (L, [k + 1, n]))
    (hL : L = "eg&_freq_lfo&".toList) : egV2 region lfos name value =
      (match freqLFO region lfos (some n) with
      | none => []
      | some t => [.depth ⟨.Envelope, some region, k % 256, 0⟩ t (readMod false value)]) := by
  unfold egV2
  rw [hs]
  exact if_pos hL

theorem effects_eg (region lfos : Nat) (name value L : Text) (ns : List Nat) (hs : Loader.seen name = (L, ns))
    (hl : letterOnlyName (trim name) = L) (hd : direct.find? (fun e => anyCc e.letters L) = none)
    (ha : L ≠ "cutoff&_chanaft".toList) (hp : L ≠ "cutoff&_polyaft".toList)
    (hc : classics.find? (fun m => m.name.isPrefixOf (trim name)) = none) (h1 : ¬ "lfo&_".toList.isPrefixOf L = true)
    (h2 : "eg&_".toList.isPrefixOf L = true) : effects region lfos name value = egV2 region lfos name value := by
  unfold effects
  simp only [hs, hd, if_neg ha, if_neg hp, hc, hl, if_neg h1, if_pos h2]

/-- **Envelopes of frequencies**: `egK_freq_lfoN` says the depth of the modulation of the frequency of LFO N by envelope K, as long as
the region has at least N - 1 LFOs so far; otherwise it is ignored. -/
theorem eg_freq_opcode (region lfos k n : Nat) (h1 : 1 ≤ k) (h2 : k ≤ 256) (h3 : 1 ≤ n) (h4 : n ≤ 256) (value : Text) :
    effects region lfos (egFreqName k n) value =
      if n ≤ lfos + 1 then [.depth ((Modulator.eg k).key region) (Setting.freq.key region n) (amount false value)] else [] := by
  have hpl : Plain [("eg".toList, k), ("_freq_lfo".toList, n)] [] :=
    plain_cons (by simp) (by decide +kernel) (by omega) (plain_one (by simp) (by decide +kernel) (by omega) (by decide +kernel))
  have hnm : egFreqName k n = write [("eg".toList, k), ("_freq_lfo".toList, n)] [] := by
    unfold egFreqName
    rw [List.append_assoc, write, write, write, List.append_nil]
  have hm : marked [("eg".toList, k), ("_freq_lfo".toList, n)] [] = "eg&_freq_lfo&".toList := by
    rw [marked, marked, marked]; decide +kernel
  have hs : Loader.seen (egFreqName k n) = ("eg&_freq_lfo&".toList, [k, n]) := by rw [hnm, seen_write _ _ hpl, hm]; rfl
  have ht : trim (egFreqName k n) = "eg".toList ++ (decimal k ++ ("_freq_lfo".toList ++ decimal n)) := by
    rw [hnm, trim_write _ _ hpl, write, write, write, List.append_nil]
  have hl : letterOnlyName (trim (egFreqName k n)) = "eg&_freq_lfo&".toList := by rw [hnm, letterOnly_write _ _ hpl, hm]
  have hc := classics_none (.eg k) (decimal k ++ ("_freq_lfo".toList ++ decimal n))
  have hc' : classics.find? (fun m => m.name.isPrefixOf (trim (egFreqName k n))) = none := by rw [ht]; exact hc
  have hd : direct.find? (fun x => anyCc x.letters "eg&_freq_lfo&".toList) = none := by decide +kernel
  obtain ⟨j, rfl⟩ : ∃ j, k = j + 1 := ⟨k - 1, by omega⟩
  obtain ⟨i, rfl⟩ : ∃ i, n = i + 1 := ⟨n - 1, by omega⟩
  rw [effects_eg region lfos _ value _ _ hs hl hd (by decide +kernel) (by decide +kernel) hc' (by decide +kernel) (by decide +kernel)]
  rw [egV2_freq region lfos _ value _ j (i + 1) hs rfl]
  simp only [freqLFO, Nat.add_sub_cancel, readMod_amount]
  by_cases hle : i + 1 ≤ lfos + 1
  · rw [if_neg (show ¬ lfos < i by omega), if_pos hle]
    simp only [Modulator.key, Setting.key, Connections.numbered, Nat.add_sub_cancel]
    rw [Nat.mod_eq_of_lt (show j < 256 by omega), Nat.mod_eq_of_lt (show i < 256 by omega)]
  · rw [if_pos (show lfos < i by omega), if_neg hle]

end Verif.Modulations
