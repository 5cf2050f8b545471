import Verif.Loader.Region
import Mathlib.Data.List.Induction
import Mathlib.Tactic.Linarith

/-!
C47: the settings of a region are those of its file: global, master, group, region opcodes, in this order.
-/
namespace Verif.Loader
open Verif.Opcode

variable {ρ : Type}

/-! ### Specification -/

/-- The opcodes of the last header `h` of the file so far, none if a header of `resets` came after it. -/
def lastOf (h : Header) (resets : List Header) (file : List Block) : List Op :=
  match file.reverse.find? (fun b => b.header = h ∨ b.header ∈ resets) with
  | some b => if b.header = h then b.members else []
  | none => []

/-- What a region inherits. -/
def inherited (file : List Block) : List Op :=
  lastOf .global [] file ++ lastOf .master [.global] file ++ lastOf .group [.global, .master] file

/-- The number of regions of a file. -/
def regionsIn (file : List Block) : Nat := (file.filter (fun b => b.header = .region)).length

/-- The last value given by some opcodes to the name `n`. -/
def lastValue (n : Text) (os : List Op) : Option Text :=
  (os.reverse.find? (fun o => o.name = n)).map Op.value

/-- The sample path: `default_path` of the last control header, slashes corrected. -/
def pathIn (file : List Block) : Text :=
  ((lastValue "default_path".toList (lastOf .control [] file)).map (fun v => (trim v).map (fun c => if c = '\\' then '/' else c))).getD []

/-- The opcodes of all control headers. -/
def controls (file : List Block) : List Op := (file.filter (fun b => b.header = .control)).flatMap Block.members

/-- `note_offset`: the last one in force; an unreadable value counts as 0. -/
def noteIn (file : List Block) : Int :=
  match lastValue "note_offset".toList (controls file) with
  | none => 0
  | some v => (readIntOr int32Min int32Max noteOffsetSpec v).getD 0

/-- `octave_offset`: the last one in force. -/
def octaveIn (file : List Block) : Int :=
  match lastValue "octave_offset".toList (controls file) with
  | none => 0
  | some v => (readIntOr int32Min int32Max octaveOffsetSpec v).getD 0

/-- A region given some opcodes one after the other. -/
def settings (L : Lang ρ) (r : ρ) (os : List Op) : Option ρ := os.foldlM (fun r o => (L.parse r o).map Prod.fst) r

/-- All the opcodes of a file. -/
def opcodes (file : List Block) : List Op := file.flatMap Block.members

/-- The opcodes are either understood by every region or refused, without effect, by every region; depending on the name. -/
def Regular (L : Lang ρ) (os : List Op) : Prop :=
  ∃ bad : Text → Bool, ∀ o ∈ os,
    (bad o.name = true → ∀ r, L.parse r o = some (r, false)) ∧
    (bad o.name = false → ∀ r r' b, L.parse r o = some (r', b) → b = true)

/-! ### Lemmas -/

theorem lastOf_snoc (h : Header) (resets : List Header) (file : List Block) (b : Block) :
    lastOf h resets (file ++ [b]) =
      if b.header = h then b.members else if b.header ∈ resets then [] else lastOf h resets file := by
  unfold lastOf
  rw [List.reverse_append]
  simp only [List.reverse_cons, List.reverse_nil, List.nil_append, List.cons_append, List.find?_cons]
  by_cases h1 : b.header = h
  · simp [h1]
  · by_cases h2 : b.header ∈ resets
    · simp [h1, h2]
    · simp [h1, h2]

theorem lastValue_snoc (n : Text) (os : List Op) (o : Op) :
    lastValue n (os ++ [o]) = if o.name = n then some o.value else lastValue n os := by
  unfold lastValue
  rw [List.reverse_append]
  simp only [List.reverse_cons, List.reverse_nil, List.nil_append, List.cons_append, List.find?_cons]
  by_cases h1 : o.name = n <;> simp [h1]

theorem lastValue_append (n : Text) (a b : List Op) : lastValue n (a ++ b) = (lastValue n b).or (lastValue n a) := by
  unfold lastValue
  rw [List.reverse_append, List.find?_append]
  cases List.find? (fun o => decide (o.name = n)) b.reverse <;> simp

/-- What the handlers of headers leave alone. -/
structure Frame (s s' : State ρ) : Prop where
  globals : s'.globals = s.globals
  masters : s'.masters = s.masters
  groups : s'.groups = s.groups
  unknown : s'.unknown = s.unknown
  layers : s'.layers = s.layers

/-- ... and those of the control header do not leave alone. -/
structure Frame2 (s s' : State ρ) : Prop extends Frame s s' where
  path : s'.path = s.path
  noteOffset : s'.noteOffset = s.noteOffset
  octaveOffset : s'.octaveOffset = s.octaveOffset

theorem Frame2.refl (s : State ρ) : Frame2 s s := ⟨⟨rfl, rfl, rfl, rfl, rfl⟩, rfl, rfl, rfl⟩

theorem Frame2.trans {a b c : State ρ} (h : Frame2 a b) (k : Frame2 b c) : Frame2 a c :=
  ⟨⟨k.globals.trans h.globals, k.masters.trans h.masters, k.groups.trans h.groups, k.unknown.trans h.unknown,
    k.layers.trans h.layers⟩, k.path.trans h.path, k.noteOffset.trans h.noteOffset, k.octaveOffset.trans h.octaveOffset⟩

theorem setCurrentSwitch_frame {s s' : State ρ} {k : Nat} (h : setCurrentSwitch s k = some s') : Frame2 s s' := by
  unfold setCurrentSwitch at h
  simp only [Option.bind_eq_bind, Option.bind_eq_some_iff, Option.pure_def, Option.some.injEq] at h
  obtain ⟨_, _, _, _, _, _, rfl⟩ := h
  exact ⟨⟨rfl, rfl, rfl, rfl, rfl⟩, rfl, rfl, rfl⟩

theorem setLimit_frame (s : State ρ) (n : Nat) : Frame2 s (setLimit s n) := by
  unfold setLimit
  split
  · exact Frame2.refl s
  · exact ⟨⟨rfl, rfl, rfl, rfl, rfl⟩, rfl, rfl, rfl⟩

theorem handleUpper_frame {s s' : State ρ} {o : Op} (h : handleUpper s o = some s') : Frame2 s s' := by
  unfold handleUpper at h
  split at h
  · simp only [Option.map_eq_some_iff] at h
    obtain ⟨n, _, rfl⟩ := h
    exact setLimit_frame s n
  · split at h
    · simp only [Option.bind_eq_bind, Option.bind_eq_some_iff] at h
      obtain ⟨k, _, h⟩ := h
      exact setCurrentSwitch_frame h
    · cases h; exact Frame2.refl _

theorem handleUppers_frame : ∀ {os : List Op} {s s' : State ρ}, handleUppers s os = some s' → Frame2 s s' := by
  intro os
  induction os with
  | nil => intro s s' h; cases h; exact Frame2.refl _
  | cons o os ih =>
    intro s s' h
    simp only [handleUppers, List.foldlM_cons, Option.bind_eq_bind, Option.bind_eq_some_iff] at h
    obtain ⟨t, h1, h2⟩ := h
    exact (handleUpper_frame h1).trans (ih h2)

theorem handleGroup1_frame {x y : State ρ × Option Int × Option Nat} {o : Op} (h : handleGroup1 x o = some y) :
    Frame2 x.1 y.1 := by
  unfold handleGroup1 at h
  split at h
  · simp only [Option.map_eq_some_iff] at h
    obtain ⟨n, _, rfl⟩ := h
    exact Frame2.refl _
  · split at h
    · simp only [Option.map_eq_some_iff] at h
      obtain ⟨n, _, rfl⟩ := h
      exact Frame2.refl _
    · split at h
      · simp only [Option.bind_eq_bind, Option.bind_eq_some_iff, Option.pure_def, Option.some.injEq] at h
        obtain ⟨k, _, t, h, rfl⟩ := h
        exact setCurrentSwitch_frame h
      · cases h; exact Frame2.refl _

theorem foldGroup_frame : ∀ {os : List Op} {x y : State ρ × Option Int × Option Nat},
    os.foldlM handleGroup1 x = some y → Frame2 x.1 y.1 := by
  intro os
  induction os with
  | nil => intro s s' h; cases h; exact Frame2.refl _
  | cons o os ih =>
    intro s s' h
    simp only [List.foldlM_cons, Option.bind_eq_bind, Option.bind_eq_some_iff] at h
    obtain ⟨t, h1, h2⟩ := h
    exact (handleGroup1_frame h1).trans (ih h2)

theorem applyGroup_frame (s : State ρ) (g : Option Int) (n : Option Nat) : Frame2 s (applyGroup s g n) := by
  cases g <;> cases n
  · exact Frame2.refl _
  · exact setLimit_frame s _
  · exact ⟨⟨rfl, rfl, rfl, rfl, rfl⟩, rfl, rfl, rfl⟩
  · exact ⟨⟨rfl, rfl, rfl, rfl, rfl⟩, rfl, rfl, rfl⟩

theorem handleGroups_frame {s s' : State ρ} {a b : List Op} (h : handleGroups s a b = some s') : Frame2 s s' := by
  unfold handleGroups at h
  simp only [Option.bind_eq_bind, Option.bind_eq_some_iff, Option.pure_def, Option.some.injEq] at h
  obtain ⟨x, h1, rfl⟩ := h
  exact (foldGroup_frame h1).trans (applyGroup_frame _ _ _)

theorem setCC_frame {s s' : State ρ} {ps : List Nat} (h : setCC s ps = some s') : Frame2 s s' := by
  unfold setCC at h
  split at h
  · cases h
  · split at h
    · split at h
      · cases h; exact ⟨⟨rfl, rfl, rfl, rfl, rfl⟩, rfl, rfl, rfl⟩
      · cases h
    · cases h; exact Frame2.refl _

/-- Reading an offset: the last value read. -/
def offsetOf (spec : Spec Int) (v : Option Text) (before : Int) : Int :=
  match v with
  | none => before
  | some v => (readIntOr int32Min int32Max spec v).getD 0

theorem control1 {s s' : State ρ} {o : Op} (h : handleControl1 s o = some s') :
    Frame s s' ∧
    s'.path = (if o.name = "default_path".toList then pathOf o.value else s.path) ∧
    s'.noteOffset = (if o.name = "note_offset".toList then (readIntOr int32Min int32Max noteOffsetSpec o.value).getD 0 else s.noteOffset) ∧
    s'.octaveOffset =
      (if o.name = "octave_offset".toList then (readIntOr int32Min int32Max octaveOffsetSpec o.value).getD 0 else s.octaveOffset) := by
  unfold handleControl1 at h
  have d1 : ("default_path".toList : Text) ≠ "note_offset".toList := by decide
  have d2 : ("default_path".toList : Text) ≠ "octave_offset".toList := by decide
  have d3 : ("note_offset".toList : Text) ≠ "octave_offset".toList := by decide
  split at h
  · rename_i h1
    cases h
    exact ⟨⟨rfl, rfl, rfl, rfl, rfl⟩, by rw [if_pos h1], by rw [h1, if_neg d1], by rw [h1, if_neg d2]⟩
  · rename_i h1
    rw [if_neg h1]
    split at h
    · rename_i h2
      rw [if_pos h2]
      simp only [Option.map_eq_some_iff] at h
      obtain ⟨v, hv, rfl⟩ := h
      exact ⟨⟨rfl, rfl, rfl, rfl, rfl⟩, rfl, by rw [hv]; rfl, by rw [h2, if_neg d3]⟩
    · rename_i h2
      rw [if_neg h2]
      split at h
      · rename_i h3
        rw [if_pos h3]
        simp only [Option.map_eq_some_iff] at h
        obtain ⟨v, hv, rfl⟩ := h
        exact ⟨⟨rfl, rfl, rfl, rfl, rfl⟩, rfl, rfl, by rw [hv]; rfl⟩
      · rename_i h3
        rw [if_neg h3]
        split at h
        · have := setCC_frame h
          exact ⟨this.toFrame, this.path, this.noteOffset, this.octaveOffset⟩
        · cases h; exact ⟨⟨rfl, rfl, rfl, rfl, rfl⟩, rfl, rfl, rfl⟩

theorem control_all : ∀ {os : List Op} {s s' : State ρ}, handleControl s os = some s' →
    Frame s s' ∧
    s'.path = ((lastValue "default_path".toList os).map pathOf).getD s.path ∧
    s'.noteOffset = offsetOf noteOffsetSpec (lastValue "note_offset".toList os) s.noteOffset ∧
    s'.octaveOffset = offsetOf octaveOffsetSpec (lastValue "octave_offset".toList os) s.octaveOffset := by
  intro os
  induction os using List.reverseRecOn with
  | nil => intro s s' h; cases h; exact ⟨⟨rfl, rfl, rfl, rfl, rfl⟩, rfl, rfl, rfl⟩
  | append_singleton os o ih =>
    intro s s' h
    unfold handleControl at h
    rw [List.foldlM_append] at h
    simp only [Option.bind_eq_bind, Option.bind_eq_some_iff, List.foldlM_cons, List.foldlM_nil, Option.pure_def,
      Option.some.injEq, exists_eq_right] at h
    obtain ⟨t, h1, h2⟩ := h
    obtain ⟨f1, p1, n1, o1⟩ := ih h1
    obtain ⟨f2, p2, n2, o2⟩ := control1 h2
    refine ⟨⟨f2.globals.trans f1.globals, f2.masters.trans f1.masters, f2.groups.trans f1.groups,
      f2.unknown.trans f1.unknown, f2.layers.trans f1.layers⟩, ?_, ?_, ?_⟩
    · rw [p2, p1, lastValue_snoc]; split <;> rfl
    · rw [n2, n1, lastValue_snoc]; split <;> rfl
    · rw [o2, o1, lastValue_snoc]; split <;> rfl

theorem newRegionSet_frame (s : State ρ) (n : Nat) : Frame2 s (newRegionSet s n) :=
  ⟨⟨rfl, rfl, rfl, rfl, rfl⟩, rfl, rfl, rfl⟩

/-- Entering a region only adds a layer. -/
theorem enterRegion_spec {L : Lang ρ} {s s' : State ρ} {r : ρ} (h : enterRegion L s r = some s') :
    s'.layers = s.layers ++ [(r, s.current)] ∧ s'.globals = s.globals ∧ s'.masters = s.masters ∧ s'.groups = s.groups ∧
    s'.unknown = s.unknown ∧ s'.path = s.path ∧ s'.noteOffset = s.noteOffset ∧ s'.octaveOffset = s.octaveOffset ∧
    s'.sets = s.sets ∧ s'.current = s.current ∧ s'.defaults = s.defaults ∧ (∀ k ∈ L.switchKeys r, k < 128) := by
  unfold enterRegion at h
  split at h
  case isFalse => cases h
  rename_i hk
  have hk' : ∀ k ∈ L.switchKeys r, k < 128 := by simpa using hk
  have go : ∀ t : State ρ, ∀ t' : State ρ,
      t' = (let s := if L.group r ≠ 0 ∧ L.polyphony r ≠ 256 then setGroupPolyphony t (L.group r) (L.polyphony r)
        else ensureGroup t (L.group r)
        { s with layers := s.layers ++ [(r, s.current)] }) →
      t'.layers = t.layers ++ [(r, t.current)] ∧ t'.globals = t.globals ∧ t'.masters = t.masters ∧ t'.groups = t.groups ∧
      t'.unknown = t.unknown ∧ t'.path = t.path ∧ t'.noteOffset = t.noteOffset ∧ t'.octaveOffset = t.octaveOffset ∧
      t'.sets = t.sets ∧ t'.current = t.current ∧ t'.defaults = t.defaults := by
    intro t t' ht
    dsimp only at ht
    split at ht <;> subst ht <;> exact ⟨rfl, rfl, rfl, rfl, rfl, rfl, rfl, rfl, rfl, rfl, rfl⟩
  dsimp only at h
  split at h
  · simp only [Option.some.injEq] at h
    obtain ⟨a1, a2, a3, a4, a5, a6, a7, a8, a9, a10, a11⟩ := go s s' h.symm
    exact ⟨a1, a2, a3, a4, a5, a6, a7, a8, a9, a10, a11, hk'⟩
  · simp only [Option.map_eq_some_iff] at h
    obtain ⟨t, ht, h⟩ := h
    obtain ⟨a1, a2, a3, a4, a5, a6, a7, a8, a9, a10, a11⟩ := go t s' h.symm
    have f := setCurrentSwitch_frame ht
    have fs : t.sets = s.sets ∧ t.current = s.current ∧ t.defaults = s.defaults := by
      unfold setCurrentSwitch at ht
      simp only [Option.bind_eq_bind, Option.bind_eq_some_iff, Option.pure_def, Option.some.injEq] at ht
      obtain ⟨_, _, _, _, _, _, rfl⟩ := ht
      exact ⟨rfl, rfl, rfl⟩
    exact ⟨by rw [a1, f.layers, fs.2.1], a2.trans f.globals, a3.trans f.masters, a4.trans f.groups, a5.trans f.unknown,
      a6.trans f.path, a7.trans f.noteOffset, a8.trans f.octaveOffset, a9.trans fs.1, a10.trans fs.2.1, a11.trans fs.2.2, hk'⟩

theorem buildRegion_spec {L : Lang ρ} {s s' : State ρ} {own : List Op} (h : buildRegion L s own = some s') :
    ∃ x r, parseAll L (L.fresh s.layers.length s.path) s.unknown (s.globals ++ s.masters ++ s.groups ++ own) = some x ∧
      transpose L s.octaveOffset s.noteOffset x.1 = some r ∧
      s'.layers = s.layers ++ [(r, s.current)] ∧ s'.globals = s.globals ∧ s'.masters = s.masters ∧ s'.groups = s.groups ∧
      s'.unknown = x.2 ∧ s'.path = s.path ∧ s'.noteOffset = s.noteOffset ∧ s'.octaveOffset = s.octaveOffset ∧
      s'.sets = s.sets ∧ s'.current = s.current ∧ s'.defaults = s.defaults ∧ (∀ k ∈ L.switchKeys r, k < 128) := by
  unfold buildRegion at h
  simp only [Option.bind_eq_bind, Option.bind_eq_some_iff] at h
  obtain ⟨x, h1, r, h2, h3⟩ := h
  obtain ⟨a1, a2, a3, a4, a5, a6, a7, a8, a9⟩ := enterRegion_spec h3
  exact ⟨x, r, h1, h2, a1, a2, a3, a4, a5, a6, a7, a8, a9⟩

theorem load_snoc {L : Lang ρ} {file : List Block} {b : Block} {s : State ρ} (h : load L (file ++ [b]) = some s) :
    ∃ t, load L file = some t ∧ onBlock L t b = some s := by
  unfold load at h
  rw [List.foldlM_append] at h
  simp only [Option.bind_eq_bind, Option.bind_eq_some_iff, List.foldlM_cons, List.foldlM_nil, Option.pure_def,
    Option.some.injEq, exists_eq_right] at h
  exact h

/-- The state agrees with the file read so far. -/
structure Agrees (s : State ρ) (file : List Block) : Prop where
  globals : s.globals = lastOf .global [] file
  masters : s.masters = lastOf .master [.global] file
  groups : s.groups = lastOf .group [.global, .master] file
  path : s.path = pathIn file
  note : s.noteOffset = noteIn file
  octave : s.octaveOffset = octaveIn file
  count : s.layers.length = regionsIn file

theorem pathIn_snoc (file : List Block) (b : Block) :
    pathIn (file ++ [b]) = if b.header = .control then ((lastValue "default_path".toList b.members).map pathOf).getD [] else pathIn file := by
  unfold pathIn
  rw [lastOf_snoc]
  simp only [List.not_mem_nil, if_false]
  split <;> rfl

theorem controls_snoc (file : List Block) (b : Block) :
    controls (file ++ [b]) = controls file ++ (if b.header = .control then b.members else []) := by
  unfold controls
  rw [List.filter_append, List.flatMap_append]
  by_cases h : b.header = .control <;> simp [h]

theorem offset_snoc (n : Text) (spec : Spec Int) (file : List Block) (b : Block) :
    offsetOf spec (lastValue n (controls (file ++ [b]))) 0 =
      if b.header = .control then offsetOf spec (lastValue n b.members) (offsetOf spec (lastValue n (controls file)) 0)
      else offsetOf spec (lastValue n (controls file)) 0 := by
  rw [controls_snoc, lastValue_append]
  split
  · cases lastValue n b.members <;> rfl
  · rfl

theorem noteIn_eq (file : List Block) : noteIn file = offsetOf noteOffsetSpec (lastValue "note_offset".toList (controls file)) 0 := by
  unfold noteIn offsetOf; split <;> rfl

theorem octaveIn_eq (file : List Block) :
    octaveIn file = offsetOf octaveOffsetSpec (lastValue "octave_offset".toList (controls file)) 0 := by
  unfold octaveIn offsetOf; split <;> rfl

theorem regionsIn_snoc (file : List Block) (b : Block) :
    regionsIn (file ++ [b]) = regionsIn file + (if b.header = .region then 1 else 0) := by
  unfold regionsIn
  rw [List.filter_append, List.length_append]
  by_cases h : b.header = .region <;> simp [h]

theorem agrees {L : Lang ρ} : ∀ {file : List Block} {s : State ρ}, load L file = some s → Agrees s file := by
  intro file
  induction file using List.reverseRecOn with
  | nil =>
    intro s h; cases h
    exact ⟨rfl, rfl, rfl, rfl, rfl, rfl, rfl⟩
  | append_singleton file b ih =>
    intro s h
    obtain ⟨t, h1, h2⟩ := load_snoc h
    have A := ih h1
    obtain ⟨hd, members⟩ := b
    have hn := noteIn_eq (file ++ [⟨hd, members⟩])
    have ho := octaveIn_eq (file ++ [⟨hd, members⟩])
    rw [offset_snoc, ← noteIn_eq] at hn
    rw [offset_snoc, ← octaveIn_eq] at ho
    unfold onBlock at h2
    cases hd <;> simp only at h2
    · have f := handleUppers_frame h2
      constructor
      · rw [f.globals, lastOf_snoc]; rfl
      · rw [f.masters, lastOf_snoc]; rfl
      · rw [f.groups, lastOf_snoc]; rfl
      · rw [f.path, pathIn_snoc]; exact A.path
      · rw [f.noteOffset, hn]; exact A.note
      · rw [f.octaveOffset, ho]; exact A.octave
      · rw [f.layers, regionsIn_snoc]; exact A.count
    · obtain ⟨f, p, n, o⟩ := control_all h2
      constructor
      · rw [f.globals, lastOf_snoc]; exact A.globals
      · rw [f.masters, lastOf_snoc]; exact A.masters
      · rw [f.groups, lastOf_snoc]; exact A.groups
      · rw [p, pathIn_snoc]; rfl
      · rw [n, hn]; simp only [if_true]; exact congrArg _ A.note
      · rw [o, ho]; simp only [if_true]; exact congrArg _ A.octave
      · rw [f.layers, regionsIn_snoc]; exact A.count
    · have f := handleUppers_frame h2
      constructor
      · rw [f.globals, lastOf_snoc]; exact A.globals
      · rw [f.masters, lastOf_snoc]; rfl
      · rw [f.groups, lastOf_snoc]; rfl
      · rw [f.path, pathIn_snoc]; exact A.path
      · rw [f.noteOffset, hn]; exact A.note
      · rw [f.octaveOffset, ho]; exact A.octave
      · rw [f.layers, regionsIn_snoc]; exact A.count
    · have f := handleGroups_frame h2
      constructor
      · rw [f.globals, lastOf_snoc]; exact A.globals
      · rw [f.masters, lastOf_snoc]; exact A.masters
      · rw [f.groups, lastOf_snoc]; rfl
      · rw [f.path, pathIn_snoc]; exact A.path
      · rw [f.noteOffset, hn]; exact A.note
      · rw [f.octaveOffset, ho]; exact A.octave
      · rw [f.layers, regionsIn_snoc]; exact A.count
    · obtain ⟨x, r, _, _, l, g, m, gr, _, p, n, o, _⟩ := buildRegion_spec h2
      constructor
      · rw [g, lastOf_snoc]; exact A.globals
      · rw [m, lastOf_snoc]; exact A.masters
      · rw [gr, lastOf_snoc]; exact A.groups
      · rw [p, pathIn_snoc]; exact A.path
      · rw [n, hn]; exact A.note
      · rw [o, ho]; exact A.octave
      · rw [l, regionsIn_snoc, List.length_append, A.count]; rfl
    · cases h2
      constructor
      · rw [lastOf_snoc]; exact A.globals
      · rw [lastOf_snoc]; exact A.masters
      · rw [lastOf_snoc]; exact A.groups
      · rw [pathIn_snoc]; exact A.path
      · rw [hn]; exact A.note
      · rw [ho]; exact A.octave
      · rw [regionsIn_snoc]; exact A.count

/-! ### Names refused before -/

/-- One region, when the opcodes are regular and the names refused before are bad ones. -/
theorem parseAll_regular {L : Lang ρ} {bad : Text → Bool} : ∀ {os : List Op} {r : ρ} {unknown : List Text} {x : ρ × List Text},
    (∀ o ∈ os, (bad o.name = true → ∀ r, L.parse r o = some (r, false)) ∧
      (bad o.name = false → ∀ r r' b, L.parse r o = some (r', b) → b = true)) →
    (∀ n ∈ unknown, bad n = true) → parseAll L r unknown os = some x →
    settings L r os = some x.1 ∧ ∀ n ∈ x.2, bad n = true := by
  intro os
  induction os with
  | nil => intro r unknown x _ hu h; cases h; exact ⟨rfl, hu⟩
  | cons o os ih =>
    intro r unknown x hr hu h
    have ho := hr o (List.mem_cons_self)
    have hos := fun p hp => hr p (List.mem_cons_of_mem _ hp)
    unfold parseAll at h
    simp only [settings, List.foldlM_cons, Option.bind_eq_bind]
    split at h
    · rename_i hm
      rw [ho.1 (hu _ hm)]
      exact ih hos hu h
    · cases hp : L.parse r o with
      | none => rw [hp] at h; cases h
      | some y =>
        obtain ⟨r', b⟩ := y
        rw [hp] at h
        cases b
        · have hb : bad o.name = true := by
            cases hb : bad o.name with
            | true => rfl
            | false => exact absurd (ho.2 hb _ _ _ hp) (by simp)
          refine ih hos ?_ h
          intro n hn
          rcases List.mem_append.mp hn with hn | hn
          · exact hu n hn
          · rw [List.mem_singleton.mp hn]; exact hb
        · exact ih hos hu h

theorem mem_lastOf {h : Header} {resets : List Header} {file : List Block} {o : Op} (ho : o ∈ lastOf h resets file) :
    o ∈ opcodes file := by
  unfold lastOf at ho
  split at ho
  · rename_i b hb
    split at ho
    · exact List.mem_flatMap.mpr ⟨b, List.mem_reverse.mp (List.mem_of_find?_eq_some hb), ho⟩
    · cases ho
  · cases ho

theorem mem_inherited {file : List Block} {o : Op} (ho : o ∈ inherited file) : o ∈ opcodes file := by
  unfold inherited at ho
  simp only [List.mem_append] at ho
  rcases ho with (ho | ho) | ho <;> exact mem_lastOf ho

/-- Only bad names are ever refused. -/
theorem unknown_bad {L : Lang ρ} {bad : Text → Bool} : ∀ {file : List Block} {s : State ρ},
    (∀ o ∈ opcodes file, (bad o.name = true → ∀ r, L.parse r o = some (r, false)) ∧
      (bad o.name = false → ∀ r r' b, L.parse r o = some (r', b) → b = true)) →
    load L file = some s → ∀ n ∈ s.unknown, bad n = true := by
  intro file
  induction file using List.reverseRecOn with
  | nil => intro s _ h; cases h; intro n hn; cases hn
  | append_singleton file b ih =>
    intro s hr h
    obtain ⟨t, h1, h2⟩ := load_snoc h
    have hop : opcodes (file ++ [b]) = opcodes file ++ b.members := by simp [opcodes]
    rw [hop] at hr
    have ih := ih (fun o ho => hr o (List.mem_append_left _ ho)) h1
    obtain ⟨hd, members⟩ := b
    unfold onBlock at h2
    cases hd <;> simp only at h2
    · rw [(handleUppers_frame h2).unknown]; exact ih
    · rw [(control_all h2).1.unknown]; exact ih
    · rw [(handleUppers_frame h2).unknown]; exact ih
    · rw [(handleGroups_frame h2).unknown]; exact ih
    · obtain ⟨x, r, hx, _, _, _, _, _, hu, _⟩ := buildRegion_spec h2
      rw [hu]
      have A := agrees h1
      rw [A.globals, A.masters, A.groups] at hx
      refine (parseAll_regular (fun o ho => hr o ?_) ih hx).2
      rcases List.mem_append.mp ho with ho | ho
      · exact List.mem_append_left _ (mem_inherited ho)
      · exact List.mem_append_right _ ho
    · cases h2; exact ih

/-- The layers of a file stay when more is read. -/
theorem layers_stay {L : Lang ρ} : ∀ {post : List Block} {t s : State ρ}, post.foldlM (onBlock L) t = some s →
    ∃ more, s.layers = t.layers ++ more := by
  intro post
  induction post with
  | nil => intro t s h; cases h; exact ⟨[], by simp⟩
  | cons b post ih =>
    intro t s h
    simp only [List.foldlM_cons, Option.bind_eq_bind, Option.bind_eq_some_iff] at h
    obtain ⟨u, h1, h2⟩ := h
    obtain ⟨more, hm⟩ := ih h2
    obtain ⟨hd, members⟩ := b
    unfold onBlock at h1
    cases hd <;> simp only at h1
    · exact ⟨more, by rw [hm, (handleUppers_frame h1).layers]; rfl⟩
    · exact ⟨more, by rw [hm, (control_all h1).1.layers]⟩
    · exact ⟨more, by rw [hm, (handleUppers_frame h1).layers]; rfl⟩
    · exact ⟨more, by rw [hm, (handleGroups_frame h1).layers]; rfl⟩
    · obtain ⟨x, r, _, _, l, _⟩ := buildRegion_spec h1
      exact ⟨_ :: more, by rw [hm, l, List.append_assoc]; rfl⟩
    · cases h1; exact ⟨more, hm⟩

theorem int32_eq {v w : Int} (h : int32 v = some w) : w = v ∧ int32Min ≤ v ∧ v ≤ int32Max := by
  unfold int32 intRange at h
  split at h
  · rename_i hr; cases h; exact ⟨rfl, hr⟩
  · cases h

theorem shift_eq {o n d : Int} (h : shift o n = some d) : d = o * 12 + n := by
  unfold shift at h
  simp only [Option.bind_eq_bind, Option.bind_eq_some_iff] at h
  obtain ⟨a, h1, h2⟩ := h
  rw [(int32_eq h2).1, (int32_eq h1).1]

/-! ### C47 -/

/-- C47: in every file whose opcodes are regular, each region has exactly the settings given by the opcodes in force of the
global, master and group headers, in this order, and then its own; its samples are searched in the path of the last control
header; and it is transposed by the offsets in force. Missing: opcodes that some regions refuse and others accept
(`refused_then_ignored_violated`). -/
theorem region_settings_partial (L : Lang ρ) (before after : List Block) (own : List Op) (s : State ρ)
    (hr : Regular L (opcodes (before ++ ⟨.region, own⟩ :: after)))
    (h : load L (before ++ ⟨.region, own⟩ :: after) = some s) :
    ∃ r r' set, settings L (L.fresh (regionsIn before) (pathIn before)) (inherited before ++ own) = some r ∧
      ((octaveIn before = 0 ∧ noteIn before = 0 ∧ r' = r) ∨ L.offset (octaveIn before * 12 + noteIn before) r = some r') ∧
      s.layers[regionsIn before]? = some (r', set) := by
  obtain ⟨bad, hr⟩ := hr
  have hop : opcodes (before ++ ⟨.region, own⟩ :: after) = opcodes before ++ (own ++ opcodes after) := by simp [opcodes]
  rw [hop] at hr
  unfold load at h
  rw [List.foldlM_append] at h
  simp only [Option.bind_eq_bind, Option.bind_eq_some_iff, List.foldlM_cons] at h
  obtain ⟨t, h1, u, h2, h3⟩ := h
  have A := agrees h1
  have hu := unknown_bad (fun o ho => hr o (List.mem_append_left _ ho)) h1
  obtain ⟨x, r', hx, ht, l, _⟩ := buildRegion_spec h2
  rw [A.globals, A.masters, A.groups, A.count, A.path] at hx
  have hs := (parseAll_regular (fun o ho => hr o (by
    rcases List.mem_append.mp ho with ho | ho
    · exact List.mem_append_left _ (mem_inherited ho)
    · exact List.mem_append_right _ (List.mem_append_left _ ho))) hu hx).1
  obtain ⟨more, hm⟩ := layers_stay h3
  refine ⟨x.1, r', t.current, hs, ?_, ?_⟩
  · unfold transpose at ht
    rw [A.octave, A.note] at ht
    split at ht
    · split at ht
      · cases ht
      · rename_i d hd
        rw [shift_eq hd] at ht
        exact Or.inr ht
    · rename_i hz
      push Not at hz
      cases ht
      exact Or.inl ⟨hz.1, hz.2, rfl⟩
  · rw [hm, l, List.append_assoc, List.getElem?_append_right (by rw [A.count])]
    simp [A.count]

/-- C47: each region of the file makes one layer. -/
theorem one_layer_per_region (L : Lang ρ) (file : List Block) (s : State ρ) (h : load L file = some s) :
    s.layers.length = regionsIn file := (agrees h).count

/-- C47, the innermost wins: whatever comes before, the value of a setting is the one given by the last opcode that gives it. -/
theorem innermost_wins {α : Type} (L : Lang ρ) (f : ρ → α) (v : α) (a b : List Op) (o : Op) (r r' : ρ)
    (hset : ∀ r r' c, L.parse r o = some (r', c) → f r' = v)
    (hkeep : ∀ p ∈ b, ∀ r r' c, L.parse r p = some (r', c) → f r' = f r)
    (h : settings L r (a ++ o :: b) = some r') : f r' = v := by
  unfold settings at h
  rw [List.foldlM_append] at h
  simp only [Option.bind_eq_bind, Option.bind_eq_some_iff, List.foldlM_cons] at h
  obtain ⟨t, _, u, h2, h3⟩ := h
  simp only [Option.map_eq_some_iff] at h2
  obtain ⟨⟨u', c⟩, h2, rfl⟩ := h2
  have hu := hset _ _ _ h2
  clear h2
  generalize u' = w at h3 hu
  induction b generalizing w with
  | nil => cases h3; exact hu
  | cons p b ih =>
    simp only [List.foldlM_cons, Option.bind_eq_bind, Option.bind_eq_some_iff] at h3
    obtain ⟨x, h4, h5⟩ := h3
    simp only [Option.map_eq_some_iff] at h4
    obtain ⟨⟨x', c'⟩, h4, rfl⟩ := h4
    exact ih (fun q hq => hkeep q (List.mem_cons_of_mem _ hq)) x' h5
      ((hkeep p List.mem_cons_self _ _ _ h4).trans hu)

/-- Opcodes of a test file. -/
def op (n v : String) : Op := ⟨n.toList, v.toList⟩

/-- C47 fails: an opcode refused by a region because the LFO that it names does not exist there is ignored in all the later
regions, even in one where it is understood. The second region alone has the modulation; after the first it has not. -/
theorem refused_then_ignored_violated :
    ((load (sfz (fun _ => true)) [⟨.region, [op "lfo3_freq" "1", op "eg1_freq_lfo3" "100"]⟩]).map
      (fun s => s.layers.map (fun l => l.1.lfoFrequency))) = some [[(1, 3)]] ∧
    ((load (sfz (fun _ => true)) [⟨.region, [op "eg1_freq_lfo3" "100"]⟩,
        ⟨.region, [op "lfo3_freq" "1", op "eg1_freq_lfo3" "100"]⟩]).map
      (fun s => s.layers.map (fun l => l.1.lfoFrequency))) = some [[], []] := by
  decide +kernel

/-- A file with all the headers: what its regions inherit and get. -/
def sample : List Block := [
  ⟨.control, [op "default_path" "a\\b/", op "note_offset" "2"]⟩,
  ⟨.global, [op "lokey" "20", op "polyphony" "9"]⟩,
  ⟨.master, [op "hikey" "80"]⟩,
  ⟨.group, [op "lokey" "30"]⟩,
  ⟨.region, [op "polyphony" "5"]⟩,
  ⟨.master, [op "hikey" "70"]⟩,
  ⟨.region, []⟩]

example : ((load (sfz (fun _ => true)) sample).map (fun s => s.layers.map (fun l => (l.1.keys.start, l.1.keys.stop, l.1.polyphony)))) =
    some [(32, 82, 5), (22, 72, 9)] ∧ inherited (sample.take 6) = [op "lokey" "20", op "polyphony" "9", op "hikey" "70"] := by
  decide +kernel

/-- An opcode that is not about the LFOs and envelopes of the second version of the format. -/
def Plain (o : Op) : Prop :=
  ¬ "lfo&_".toList.isPrefixOf (letterOnlyName (trim o.name)) ∧ ¬ "eg&_".toList.isPrefixOf (letterOnlyName (trim o.name))

/-- C47: which files are regular: those without opcodes of numbered LFOs and envelopes, when the other opcodes are accepted or
refused by their names. -/
theorem sfz_regular (known : Text → Bool) (os : List Op) (h : ∀ o ∈ os, Plain o) : Regular (sfz (fun o => known o.name)) os := by
  refine ⟨fun n =>
    match kinds.lookup (seen n).1 with
    | some _ => false
    | none =>
      match guardOf (seen n).1 with
      | none => !known n
      | some g =>
        match (seen n).2.getLast? with
        | none => false
        | some cc =>
          decide (((seen n).1 ∉ pointNames ∧ (seen n).2.dropLast.any (· = 0)) ∨ (g = .loose ∧ cc > 512) ∨ (g = .strict ∧ cc ≥ 512)),
    fun o ho => ?_⟩
  obtain ⟨h1, h2⟩ := h o ho
  simp only [sfz, parseOpcode, if_neg h1, if_neg h2]
  cases kinds.lookup (seen o.name).1 with
  | some k =>
    refine ⟨fun hb => (by cases hb), fun _ r r' c hc => ?_⟩
    simp only [Option.map_eq_some_iff, Prod.mk.injEq] at hc
    obtain ⟨_, _, _, hc⟩ := hc
    exact hc.symm
  | none =>
    cases guardOf (seen o.name).1 with
    | none => cases known o.name <;> simp
    | some g =>
      dsimp only
      unfold parseCC
      cases (seen o.name).2.getLast? with
      | none => simp
      | some cc =>
        dsimp only
        by_cases hz : (seen o.name).1 ∉ pointNames ∧ (seen o.name).2.dropLast.any (· = 0) = true
        · simp only [if_pos hz, hz, not_false_eq_true, and_self, true_or, decide_true]
          simp
        · simp only [if_neg hz, hz, false_or, decide_eq_true_eq, decide_eq_false_iff_not]
          cases g <;> simp only [reduceCtorEq, true_and, false_and, or_false, false_or, not_false_eq_true]
          · by_cases hc : cc > 512 <;> simp [hc]
          · by_cases hc : cc ≥ 512 <;> simp [hc]
          · by_cases hc : cc ≥ 512 <;> simp [hc]

/-- The conditions of `region_settings_partial` hold of the sample file. -/
example : ∃ s, load (sfz (fun _ => true)) sample = some s ∧ Regular (sfz (fun _ => true)) (opcodes sample) := by
  refine ⟨_, Option.some_get (by decide +kernel) |>.symm, sfz_regular (fun _ => true) _ ?_⟩
  unfold Plain
  decide +kernel

end Verif.Loader
