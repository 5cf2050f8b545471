import Verif.Reload.Model
import Mathlib.Tactic.NormNum
import Mathlib.Data.List.Induction

/-!
# Loading forgets the previous instrument

C105: after any history, loading an instrument leaves the settings that a new engine would have.
C106: the voices measure their power when the instrument asks for stealing by envelope and age.
-/
namespace Verif.Reload

/-! ### Specification -/

/-- The file of the last load of a history, none at first. -/
def lastLoaded : List Op → String
  | [] => ""
  | ops@(_ :: _) => (ops.reverse.findSome? fun
      | .load p _ => some p
      | _ => none).getD ""

/-- The engine after a history and then a load. -/
def after (ops : List Op) (p : String) (cs : List Control) : State := run fresh (ops ++ [.load p cs])

/-- A new engine with the instrument. -/
def alone (p : String) (cs : List Control) : State := run fresh [.load p cs]

/-- The controllers that tell about notes and are silenced by a load. -/
def noteCC (n : Nat) : Prop := n ∈ [131, 133, 134, 135, 136, 137]

/-! ### Lemmas -/

theorem lastLoaded_snoc (ops : List Op) (op : Op) : lastLoaded (ops ++ [op]) =
    match op with
    | .load p _ => p
    | _ => lastLoaded ops := by
  have h : ∀ ops : List Op, lastLoaded ops = (ops.reverse.findSome? fun
      | .load p _ => some p
      | _ => none).getD "" := by
    intro ops; cases ops <;> rfl
  rw [h, h, List.reverse_append]
  cases op <;> simp

theorem run_snoc (s : State) (ops : List Op) (op : Op) : run s (ops ++ [op]) = step (run s ops) op := by
  simp [run]

theorem control_path (r : Bool) (s : State) (c : Control) : (control r s c).path = s.path := by
  cases c <;> rfl

theorem foldl_path (r : Bool) (cs : List Control) : ∀ s, (cs.foldl (control r) s).path = s.path := by
  induction cs with
  | nil => intro s; rfl
  | cons c cs ih => intro s; rw [List.foldl_cons, ih, control_path]

theorem load_path (p : String) (cs : List Control) (s : State) : (load p cs s).path = p := by
  unfold load
  rw [foldl_path]
  unfold prepare
  by_cases h : s.path = p
  · simp only [h, if_true]; exact h
  · simp only [h, if_false]

theorem run_path (ops : List Op) : (run fresh ops).path = lastLoaded ops := by
  induction ops using List.reverseRecOn with
  | nil => rfl
  | append_singleton ops op ih =>
    rw [run_snoc, lastLoaded_snoc]
    cases op with
    | load p cs => exact load_path p cs _
    | cc n v => exact ih
    | resetCC => exact ih
    | setSustainCancelsRelease b => exact ih
    | setNumVoices n => simp only [step]; split <;> exact ih

/-- The settings a load always resets. -/
structure Same (s t : State) : Prop where
  keyLabels : s.keyLabels = t.keyLabels
  defaultPath : s.defaultPath = t.defaultPath
  image : s.image = t.image
  noteOffset : s.noteOffset = t.noteOffset
  octaveOffset : s.octaveOffset = t.octaveOffset
  ramBased : s.ramBased = t.ramBased
  stealing : s.stealing = t.stealing
  followPower : s.followPower = t.followPower
  groups : s.groups = t.groups

theorem Same.control {s t : State} (h : Same s t) (r r' : Bool) (c : Control) :
    Same (control r s c) (control r' t c) := by
  obtain ⟨h1, h2, h3, h4, h5, h6, h7, h8, h9⟩ := h
  cases c <;> constructor <;> simp only [Reload.control, setStealing, *]

theorem Same.foldl {r r' : Bool} (cs : List Control) : ∀ {s t : State}, Same s t →
    Same (cs.foldl (Reload.control r) s) (cs.foldl (Reload.control r') t) := by
  induction cs with
  | nil => intro s t h; exact h
  | cons c cs ih => intro s t h; exact ih (h.control r r' c)

theorem prepare_same (p : String) (s t : State) : Same (prepare p s) (prepare p t) := by
  unfold prepare
  constructor <;> by_cases h : s.path = p <;> by_cases h' : t.path = p <;>
    simp [h, h', clear, setStealing, resetDefaultCC]

/-- The defaults and names of controllers. -/
structure SameCC (s t : State) : Prop where
  ccDefault : s.ccDefault = t.ccDefault
  ccLabels : s.ccLabels = t.ccLabels

theorem SameCC.control {s t : State} (h : SameCC s t) (r r' : Bool) (c : Control) :
    SameCC (Reload.control r s c) (Reload.control r' t c) := by
  obtain ⟨h1, h2⟩ := h
  cases c <;> constructor <;> simp only [Reload.control, setStealing, *]

theorem SameCC.foldl {r r' : Bool} (cs : List Control) : ∀ {s t : State}, SameCC s t →
    SameCC (cs.foldl (Reload.control r) s) (cs.foldl (Reload.control r') t) := by
  induction cs with
  | nil => intro s t h; exact h
  | cons c cs ih => intro s t h; exact ih (h.control r r' c)

/-- The value of a controller, once some opcode sets it. -/
theorem cc_foldl (n : Nat) (cs : List Control) : ∀ {s t : State}, s.cc n = t.cc n ∨ (∃ v, Control.setCC n v ∈ cs) →
    (cs.foldl (control false) s).cc n = (cs.foldl (control false) t).cc n := by
  induction cs with
  | nil => intro s t h; rcases h with h | ⟨v, h⟩
           · exact h
           · simp at h
  | cons c cs ih =>
    intro s t h
    simp only [List.foldl_cons]
    apply ih
    rcases h with h | ⟨v, h⟩
    · left
      cases c with
      | setCC k v => simp only [control, Bool.false_eq_true, if_false, Function.update_apply, h]
      | _ => simp only [control, setStealing, h]
    · rcases List.mem_cons.mp h with rfl | h
      · left; simp [control]
      · right; exact ⟨v, h⟩

theorem cc_reload (n : Nat) (cs : List Control) : ∀ s : State, (cs.foldl (control true) s).cc n = s.cc n := by
  induction cs with
  | nil => intro s; rfl
  | cons c cs ih =>
    intro s
    rw [List.foldl_cons, ih]
    cases c <;> simp [control, setStealing]

theorem imageControls_foldl (r r' : Bool) (cs : List Control) : ∀ {s t : State}, s.defaultPath = t.defaultPath →
    s.imageControls = t.imageControls ∨ (∃ f, Control.imageControls f ∈ cs) →
    (cs.foldl (control r) s).imageControls = (cs.foldl (control r') t).imageControls := by
  induction cs with
  | nil => intro s t _ h; rcases h with h | ⟨v, h⟩
           · exact h
           · simp at h
  | cons c cs ih =>
    intro s t hd h
    simp only [List.foldl_cons]
    apply ih
    · cases c <;> simp only [control, setStealing, hd]
    · rcases h with h | ⟨f, h⟩
      · left; cases c <;> simp only [control, setStealing, hd, h]
      · rcases List.mem_cons.mp h with rfl | h
        · left; simp only [control, hd]
        · right; exact ⟨f, h⟩

theorem sustain_foldl (r r' : Bool) (cs : List Control) : ∀ {s t : State},
    s.sustainCancelsRelease = t.sustainCancelsRelease ∨ (∃ b, Control.sustainCancelsRelease b ∈ cs) →
    (cs.foldl (control r) s).sustainCancelsRelease = (cs.foldl (control r') t).sustainCancelsRelease := by
  induction cs with
  | nil => intro s t h; rcases h with h | ⟨v, h⟩
           · exact h
           · simp at h
  | cons c cs ih =>
    intro s t h
    simp only [List.foldl_cons]
    apply ih
    rcases h with h | ⟨f, h⟩
    · left; cases c <;> simp only [control, setStealing, h]
    · rcases List.mem_cons.mp h with rfl | h
      · left; simp only [control]
      · right; exact ⟨f, h⟩

/-! ### C105 -/

/-- C105 (partial), what never depends on the past: names of keys, default path, image, offsets of notes and octaves, loading in
RAM, stealing algorithm and polyphony groups are those of a new engine with the instrument. -/
theorem load_forgets_partial (ops : List Op) (p : String) (cs : List Control) :
    Same (after ops p cs) (alone p cs) := by
  unfold after alone
  rw [run_snoc]
  exact Same.foldl cs (prepare_same p _ _)

/-- C105 (partial), controllers: for a file other than the one loaded last, their defaults and their names are those of a new
engine with the instrument, and so are the values of the controllers that the instrument sets.
Missing: `controller_values_violated`, `reload_names_violated`, `reload_defaults_violated`. -/
theorem load_controllers_partial (ops : List Op) (p : String) (cs : List Control) (hp : p ≠ lastLoaded ops) (h0 : p ≠ "") :
    SameCC (after ops p cs) (alone p cs) ∧
    ∀ n v, Control.setCC n v ∈ cs → (after ops p cs).cc n = (alone p cs).cc n := by
  have hs : (run fresh ops).path ≠ p := by rw [run_path]; exact fun h => hp h.symm
  have hf : fresh.path ≠ p := fun h => h0 h.symm
  unfold after alone
  rw [run_snoc]
  constructor
  · apply SameCC.foldl
    unfold prepare
    rw [if_neg hs, if_neg hf]
    constructor <;> simp [resetDefaultCC, clear, setStealing]
  · intro n v hn
    have hl : ∀ s : State, s.path ≠ p → load p cs s = cs.foldl (control false) (prepare p s) := by
      intro s h
      unfold load
      rw [decide_eq_false h]
    change (load p cs (run fresh ops)).cc n = (load p cs fresh).cc n
    rw [hl _ hs, hl _ hf]
    exact cc_foldl n cs (Or.inr ⟨v, hn⟩)

/-- C105 (partial): the image of controls and the meaning of the pedal are those of a new engine if the instrument tells them.
Missing: otherwise those of an earlier instrument stay, `image_controls_violated`, `sustain_hint_violated`. -/
theorem load_told_partial (ops : List Op) (p : String) (cs : List Control) :
    ((∃ f, Control.imageControls f ∈ cs) → (after ops p cs).imageControls = (alone p cs).imageControls) ∧
    ((∃ b, Control.sustainCancelsRelease b ∈ cs) →
      (after ops p cs).sustainCancelsRelease = (alone p cs).sustainCancelsRelease) := by
  unfold after alone
  rw [run_snoc]
  exact ⟨fun h => imageControls_foldl _ _ cs (prepare_same p _ _).defaultPath (Or.inr h),
    fun h => sustain_foldl _ _ cs (Or.inr h)⟩

/-- C105, reloading: loading the same file again leaves all controllers where they are, apart from those that tell about
notes. -/
theorem reload_keeps_controllers (ops : List Op) (cs : List Control) (n : Nat) (hn : ¬ noteCC n) :
    (after ops (lastLoaded ops) cs).cc n = (run fresh ops).cc n := by
  unfold after
  rw [run_snoc]
  have h := run_path ops
  simp only [step, load, h, decide_true, cc_reload, prepare, if_true, clear, setStealing]
  unfold noteCC at hn
  rw [if_neg hn]

/-- Non-vacuity: after another instrument with settings of all kinds, controllers moved and the voices changed. -/
example : (after [.load "a.sfz" [.setCC 20 1, .image "a.png", .stealing .first, .groupPolyphony 3 2, .noteOffset 12],
      .cc 7 1, .setNumVoices 8] "b.sfz" [.setCC 20 (1/2), .labelCC 7 "Gain"]).cc 20 = 1 / 2 ∧
    (after [.load "a.sfz" [.setCC 20 1, .image "a.png", .stealing .first, .groupPolyphony 3 2, .noteOffset 12],
      .cc 7 1, .setNumVoices 8] "b.sfz" [.setCC 20 (1/2), .labelCC 7 "Gain"]).ccLabels =
      [(7, "Gain"), (10, "Pan"), (11, "Expression")] ∧
    "b.sfz" ≠ lastLoaded [.load "a.sfz" [.setCC 20 1, .image "a.png", .stealing .first, .groupPolyphony 3 2, .noteOffset 12],
      .cc 7 1, .setNumVoices 8] := by
  refine ⟨?_, ?_, ?_⟩ <;> decide +kernel

/-- C105 is violated by the image of controls: an instrument without one shows that of the instrument before. -/
theorem image_controls_violated :
    (after [.load "a.sfz" [.imageControls "a.png"]] "b.sfz" []).imageControls = "a.png" ∧
    (alone "b.sfz" []).imageControls = "" := by
  constructor <;> decide +kernel

/-- C105 is violated by `hint_sustain_cancels_release`: it stays for the following instruments. -/
theorem sustain_hint_violated :
    (after [.load "a.sfz" [.sustainCancelsRelease true]] "b.sfz" []).sustainCancelsRelease = true ∧
    (alone "b.sfz" []).sustainCancelsRelease = false := by
  constructor <;> decide +kernel

/-- C105 is violated by the values of controllers: what `set_cc` of an instrument sets, though nobody moved a controller, is
what the next instrument starts from, against its own default. -/
theorem controller_values_violated :
    (after [.load "a.sfz" [.setCC 20 1]] "b.sfz" []).cc 20 = 1 ∧
    (after [.load "a.sfz" [.setCC 20 1]] "b.sfz" []).ccDefault 20 = 0 ∧ (alone "b.sfz" []).cc 20 = 0 := by
  refine ⟨?_, ?_, ?_⟩ <;> decide +kernel

/-- C105 is violated when a file is loaded again: the controllers 7, 10 and 11 lose their names. -/
theorem reload_names_violated :
    (after [.load "a.sfz" []] "a.sfz" []).ccLabels = [] ∧
    (alone "a.sfz" []).ccLabels = [(7, "Volume"), (10, "Pan"), (11, "Expression")] := by
  constructor <;> decide +kernel

/-- C105 is violated when a file is edited and loaded again: a default that was taken out of the file stays. -/
theorem reload_defaults_violated :
    (after [.load "a.sfz" [.setCC 20 1]] "a.sfz" []).ccDefault 20 = 1 ∧ (alone "a.sfz" []).ccDefault 20 = 0 := by
  constructor <;> decide +kernel

/-! ### C106 -/

/-- C106 (partial): right after a load, and after any calls but `setNumVoices`, the voices measure their power exactly when the
stealing algorithm compares powers. Missing: `power_violated`. -/
theorem power_followed_partial (ops : List Op) (p : String) (cs : List Control) (later : List Op)
    (h : ∀ op ∈ later, ∀ n, op ≠ .setNumVoices n) :
    (run (after ops p cs) later).followPower = decide ((run (after ops p cs) later).stealing = .envelopeAndAge) := by
  have hc : ∀ (r : Bool) (cs : List Control) (s : State), s.followPower = decide (s.stealing = .envelopeAndAge) →
      (cs.foldl (control r) s).followPower = decide ((cs.foldl (control r) s).stealing = .envelopeAndAge) := by
    intro r cs
    induction cs with
    | nil => intro s h; exact h
    | cons c cs ih =>
      intro s h
      apply ih
      cases c <;> first | exact h | (simp only [control, setStealing]; congr)
  have hl : ∀ (p : String) (cs : List Control) (s : State),
      (load p cs s).followPower = decide ((load p cs s).stealing = .envelopeAndAge) := by
    intro p cs s
    apply hc
    unfold prepare
    by_cases hp : s.path = p <;> simp [hp, clear, setStealing, resetDefaultCC]
  induction later using List.reverseRecOn with
  | nil => unfold after; rw [run_snoc, run]; exact hl p cs _
  | append_singleton later op ih =>
    have ih' := ih (fun o ho => h o (by simp [ho]))
    rw [run_snoc]
    cases op with
    | load p cs => exact hl p cs _
    | cc n v => exact ih'
    | resetCC => exact ih'
    | setSustainCancelsRelease b => exact ih'
    | setNumVoices n => exact absurd rfl (h (.setNumVoices n) (by simp) n)

example : (run (after [] "a.sfz" [.stealing .envelopeAndAge]) [.cc 7 1, .resetCC]).followPower = true := by
  decide +kernel

/-- C106 is violated: after a change of the number of voices nothing is measured any more, all powers read zero, and the
stealing algorithm goes on comparing them. -/
theorem power_violated :
    (run (after [] "a.sfz" [.stealing .envelopeAndAge]) [.setNumVoices 8]).stealing = .envelopeAndAge ∧
    (run (after [] "a.sfz" [.stealing .envelopeAndAge]) [.setNumVoices 8]).followPower = false := by
  constructor <;> decide +kernel

end Verif.Reload
