import Verif.Modulations.More

/-! C145, continued: the opcodes for the stages of the envelopes of the pitch and of the filter also connect the envelope. -/
namespace Verif.Modulations
open Verif.Opcode
open Verif.ModMatrix (ModKey ModId)
open Verif.Connections (Op Param)

/-- The stages of an envelope and its levels. -/
def stages : List Text := ["attack", "decay", "delay", "hold", "release", "start", "sustain"].map String.toList

/-- The words for a stage and a controller. -/
def stageWords : List (Category × Text) := words.filter fun w => w.2 = "_oncc".toList ∨ w.2 = "_curvecc".toList

example : stageWords.length = 2 := by decide +kernel

theorem stage_direct (o : Old) : ∀ t ∈ stages, Word t ∧
    (direct.find? (fun e => anyCc e.letters (oldName o t)) = none ∧
      oldName o t ≠ "cutoff&_chanaft".toList ∧ oldName o t ≠ "cutoff&_polyaft".toList) ∧
    ∀ w ∈ stageWords, direct.find? (fun e => anyCc e.letters (oldName o t ++ (w.2 ++ ['&']))) = none ∧
      oldName o t ++ (w.2 ++ ['&']) ≠ "cutoff&_chanaft".toList ∧ oldName o t ++ (w.2 ++ ['&']) ≠ "cutoff&_polyaft".toList := by
  cases o <;> decide +kernel

theorem stage_decide (o : Old) : ∀ t ∈ stages,
    (oldName o t ≠ o.entry.name ++ "depth".toList ∧ oldName o t ≠ o.entry.name ++ "veltodepth".toList ∧
      ¬ anyCc (o.entry.name ++ "depth".toList) (oldName o t) = true ∧ oldName o t ∈ egPlain.map (o.entry.name ++ ·)) ∧
    ∀ w ∈ stageWords, oldName o t ++ (w.2 ++ ['&']) ≠ o.entry.name ++ "depth".toList ∧
      oldName o t ++ (w.2 ++ ['&']) ≠ o.entry.name ++ "veltodepth".toList ∧
      ¬ anyCc (o.entry.name ++ "depth".toList) (oldName o t ++ (w.2 ++ ['&'])) = true ∧
      oldName o t ++ (w.2 ++ ['&']) ∉ egPlain.map (o.entry.name ++ ·) ∧
      oldName o t ++ (w.2 ++ ['&']) ∈ egCC.map (o.entry.name ++ ·) := by
  cases o <;> decide +kernel

/-- The envelope as a source and what it modulates. -/
theorem old_entry_keys (region : Nat) (o : Old) : key region o.entry.source = o.source region ∧ key region o.entry.target = o.target.key region := by
  cases o <;> exact ⟨rfl, rfl⟩

/-- **C145. Stages**: an opcode for a stage of the envelope, such as `pitcheg_attack`, connects the envelope to what it modulates, and
says no depth. -/
theorem old_stage_opcode (region lfos : Nat) (o : Old) (ho : o.isLFO = false) (t : Text) (ht : t ∈ stages) (value : Text) :
    effects region lfos (oldName o t) value = [.make (o.source region) (o.target.key region)] := by
  obtain ⟨h1, ⟨h2, h3, h4⟩, _⟩ := stage_direct o t ht
  obtain ⟨⟨q1, q2, q3, q4⟩, _⟩ := stage_decide o t ht
  obtain ⟨s1, s2⟩ := old_seen o h1
  rw [effects_old region lfos o _ value t (by rw [s2]; unfold oldName; rfl) (by rw [s1]; exact h2) (by rw [s1]; exact h3) (by rw [s1]; exact h4)]
  unfold classic
  rw [old_entry_isLFO, ho, if_neg (by decide)]
  unfold classicEG
  rw [s1, if_neg q1, if_neg q2, if_neg q3, if_pos q4, (old_entry_keys region o).1, (old_entry_keys region o).2]
  rfl

/-- **C145. Stages and controllers**: `pitcheg_attack_onccN` and the like connect the envelope when there is a controller N, that is for N
below 512, and are ignored otherwise. -/
theorem old_stage_cc_opcode (region lfos : Nat) (o : Old) (ho : o.isLFO = false) (t : Text) (ht : t ∈ stages) (w : Category × Text)
    (hw : w ∈ stageWords) (n : Nat) (hn : n < 65536) (value : Text) :
    effects region lfos (ccName (oldName o t) w n) value = if n < 512 then [.make (o.source region) (o.target.key region)] else [] := by
  have hw' : w ∈ words := List.mem_of_mem_filter hw
  obtain ⟨h1, _, h⟩ := stage_direct o t ht
  obtain ⟨h2, h3, h4⟩ := h w hw
  obtain ⟨_, q⟩ := stage_decide o t ht
  obtain ⟨q1, q2, q3, q4, q5⟩ := q w hw
  obtain ⟨s1, s2, _⟩ := old_seen_cc o h1 w hw' n hn
  rw [effects_old region lfos o _ value (t ++ w.2 ++ decimal n)
    (by rw [s2]; unfold ccName oldName; simp only [List.append_assoc, List.cons_append])
    (by rw [s1]; exact h2) (by rw [s1]; exact h3) (by rw [s1]; exact h4)]
  unfold classic
  rw [old_entry_isLFO, ho, if_neg (by decide)]
  unfold classicEG
  rw [s1, if_neg q1, if_neg q2, if_neg q3, if_neg q4, if_pos q5, (old_entry_keys region o).1, (old_entry_keys region o).2]
  simp only [List.getLast?_singleton]
  by_cases hn5 : n < 512
  · rw [if_neg (by omega), if_pos hn5]; rfl
  · rw [if_pos (by omega), if_neg hn5]

/-- `fileg_decay_curvecc600` is ignored, `fileg_decay_curvecc6` is not. -/
example : ∃ w ∈ stageWords, ccName (oldName .filterEG "decay".toList) w 600 = "fileg_decay_curvecc600".toList ∧
    effects 3 0 (ccName (oldName .filterEG "decay".toList) w 600) "1".toList = [] ∧
    effects 3 0 (ccName (oldName .filterEG "decay".toList) w 6) "1".toList = [.make (Old.filterEG.source 3) (Old.filterEG.target.key 3)] := by
  obtain ⟨w, hw, he⟩ : ∃ w ∈ stageWords, w.2 = "_curvecc".toList := by decide +kernel
  refine ⟨w, hw, by unfold ccName; rw [he]; decide +kernel, ?_, ?_⟩
  · rw [old_stage_cc_opcode 3 0 .filterEG rfl _ (by decide +kernel) w hw 600 (by decide)]; rfl
  · rw [old_stage_cc_opcode 3 0 .filterEG rfl _ (by decide +kernel) w hw 6 (by decide)]; rfl

example : effects 3 0 "pitcheg_attack".toList "0.5".toList = [.make (Old.pitchEG.source 3) (Old.pitchEG.target.key 3)] :=
  old_stage_opcode 3 0 .pitchEG rfl "attack".toList (by decide +kernel) _

end Verif.Modulations
