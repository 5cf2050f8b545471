import Verif.Slots.Model
import Verif.Engine.Pedals
import Mathlib.Data.List.Induction

/-!
C148: the controllers that the engine tells to have changed, in this block and in the block before, are those that were sent.
-/
namespace Verif.Slots
open Verif.Engine (Op E Cfg run InOrder controller latest sentCC)

/-! ### Specification -/

/-- The controller that a call sends; the pitch bend, the channel aftertouch and the poly aftertouch are the controllers 128, 129 and
130. -/
def sent : Op → Option Nat
  | .cc _ n _ | .automate _ n _ => some n
  | .pitchWheel _ _ => some 128
  | .channelAftertouch _ _ => some 129
  | .polyAftertouch _ _ _ => some 130
  | _ => none

/-- The call ends a block. -/
def endsBlock : Op → Bool
  | .render f _ => decide (1 ≤ f)
  | _ => false

/-! ### Lemmas -/

theorem changed_snoc (ops : List Op) (op : Op) : changed (ops ++ [op]) = changes (changed ops) op := by
  unfold changed
  rw [List.foldl_append]
  rfl

theorem changes_inner (x : Changed) (op : Op) (h : endsBlock op = false) :
    changes x op = { this := fun k => decide (sent op = some k) || x.this k, last := x.last } := by
  cases op with
  | render f snd =>
    have hf : f < 1 := by simpa [endsBlock] using h
    simp [changes, hf, sent]
  | cc d n v | automate d n v | pitchWheel d v | channelAftertouch d v | polyAftertouch d n v =>
    simp only [changes, Changed.mark, sent]
    congr 1
    funext k
    split
    · rename_i e; simp [e]
    · rename_i e; simp [Ne.symm e]
  | noteOn d n v | noteOff d n v | program p | allSoundOff | setNumVoices n => simp [changes, sent]

theorem changes_end (x : Changed) (op : Op) (h : endsBlock op = true) : changes x op = { this := fun _ => false, last := x.this } := by
  cases op with
  | render f snd =>
    have hf : 1 ≤ f := by simpa [endsBlock] using h
    simp only [changes]
    rw [if_neg (by omega)]
  | _ => simp [endsBlock] at h

theorem changed_inner (ops : List Op) : ∀ (block : List Op), (∀ op ∈ block, endsBlock op = false) →
    changed (ops ++ block) = { this := fun k => block.any (fun op => decide (sent op = some k)) || (changed ops).this k, last := (changed ops).last } := by
  intro block
  induction block using List.reverseRecOn with
  | nil => intro _; simp
  | append_singleton block op ih =>
    intro h
    rw [← List.append_assoc, changed_snoc, ih (fun o ho => h o (by simp [ho])), changes_inner _ _ (h op (by simp))]
    congr 1
    funext k
    simp only [List.any_append, List.any_cons, List.any_nil, Bool.or_false]
    rw [← Bool.or_assoc, Bool.or_comm (decide _)]

/-! ### C148 -/

/-- **What is told of the block under way**: the controllers sent since the last block ended, at whatever history. -/
theorem changed_this (ops block : List Op) (hb : ∀ op ∈ block, endsBlock op = false) (f : Nat) (snd : Nat → Engine.Sound) (hf : 1 ≤ f) (k : Nat) :
    (changed (ops ++ .render f snd :: block)).this k = true ↔ ∃ op ∈ block, sent op = some k := by
  rw [List.append_cons, changed_inner _ block hb, changed_snoc, changes_end _ _ (by simpa [endsBlock] using hf)]
  simp

/-- The same in the first block. -/
theorem changed_first (block : List Op) (hb : ∀ op ∈ block, endsBlock op = false) (k : Nat) :
    ((changed block).this k = true ↔ ∃ op ∈ block, sent op = some k) ∧ (changed block).last k = false := by
  have := changed_inner [] block hb
  rw [List.nil_append] at this
  rw [this]
  simp [changed]

/-- **What is told of the block before**: the controllers sent in it, and none sent after its end or before its start. -/
theorem changed_last (ops before block : List Op) (h1 : ∀ op ∈ before, endsBlock op = false) (h2 : ∀ op ∈ block, endsBlock op = false)
    (f g : Nat) (snd snd' : Nat → Engine.Sound) (hf : 1 ≤ f) (hg : 1 ≤ g) (k : Nat) :
    (changed (ops ++ .render f snd :: before ++ .render g snd' :: block)).last k = true ↔ ∃ op ∈ before, sent op = some k := by
  rw [List.append_cons (ops ++ .render f snd :: before), changed_inner _ block h2, changed_snoc, changes_end _ _ (by simpa [endsBlock] using hg)]
  exact changed_this ops before h1 f snd hf k

theorem latest_append {A : Type} (g : Op → Option A) (x : A) (a : List Op) : ∀ (b : List Op), (∀ op ∈ b, g op = none) → latest g x (a ++ b) = latest g x a := by
  intro b h
  unfold latest
  rw [List.filterMap_append, List.filterMap_eq_nil_iff.2 h, List.append_nil]

theorem marked_this (ops block : List Op) (hb : ∀ op ∈ block, endsBlock op = false) (k : Nat) (h : ∃ op ∈ block, sent op = some k) :
    (changed (ops ++ block)).this k = true := by
  rw [changed_inner _ block hb]
  obtain ⟨op, ho, he⟩ := h
  simp only [Bool.or_eq_true, List.any_eq_true, decide_eq_true_eq]
  exact Or.inl ⟨op, ho, he⟩

/-- **No change goes untold**: an ordinary controller whose value is not the one it had at some moment of the block is among those told to have
changed. Missing: a reset of all controllers (`reset_violated`), a value set by a message (`message_violated`), and the controllers that
the notes set (`note_violated`). -/
theorem changes_told_partial (c : Cfg) (v0 : Nat → ℚ) (s0 : E) (h0 : ∀ k, s0.midi.cc k = [⟨0, v0 k⟩]) (ops block : List Op) (s t : E)
    (ho : InOrder (ops ++ block)) (hs : run c s0 ops = some s) (ht : run c s0 (ops ++ block) = some t) (hb : ∀ op ∈ block, endsBlock op = false)
    (hr : ∀ op ∈ block, ¬ Engine.Resets op) (k : Nat) (hk : k < 128) (hne : Layer.ccValue t.midi k ≠ Layer.ccValue s.midi k) :
    (changed (ops ++ block)).this k = true := by
  refine marked_this ops block hb k ?_
  by_contra hno
  apply hne
  have ho1 : InOrder ops := by
    intro pre o rest he
    exact ho pre o (rest ++ block) (by rw [he]; simp)
  rw [(Engine.run_holds (c := c) v0 s0 h0 k hk ops s hs ho1).ccValue, (Engine.run_holds (c := c) v0 s0 h0 k hk _ t ht ho).ccValue]
  unfold controller
  refine latest_append _ _ ops block ?_
  intro op hop
  have hnot : sent op ≠ some k := fun e => hno ⟨op, hop, e⟩
  cases op with
  | cc d n v =>
    have h121 : n ≠ 121 := fun e => hr _ hop ⟨d, v, by rw [e]⟩
    have hn : n ≠ k := fun e => hnot (by rw [e]; rfl)
    simp [sentCC, h121, hn]
  | automate d n v =>
    have hn : n ≠ k := fun e => hnot (by rw [e]; rfl)
    simp [sentCC, hn]
  | pitchWheel d v | channelAftertouch d v | polyAftertouch d n v =>
    simp only [sentCC]
    rw [if_neg (by omega)]
  | _ => rfl

/-! ### Examples and violations -/

/-- Controller 1 and a bend in the first block, controller 7 in the second. -/
example : let ops : List Op := [.cc 0 1 (1 / 2), .pitchWheel 3 1, .render 64 (fun _ => ⟨none, false, false, 0⟩), .automate 0 7 1]
    ((List.range 512).filter (changed ops).this, (List.range 512).filter (changed ops).last) = ([7], [1, 128]) := by decide +kernel

/-- The plain instrument of the examples below. -/
def plain : Cfg := Engine.demo [{}]

example : ((run plain (Engine.demoLoad plain 4 8) [.cc 0 1 (1 / 2)]).bind (fun s => (run plain (Engine.demoLoad plain 4 8) ([.cc 0 1 (1 / 2)] ++ [.cc 3 1 1])).map
    (fun t => (Layer.ccValue s.midi 1, Layer.ccValue t.midi 1)))) = some (1 / 2, 1) := by decide +kernel

/-- **Reset violated**: a reset of all controllers (controller 121) puts controller 1 back, and only 121 is told to have changed. -/
theorem reset_violated : ∃ s t, run plain (Engine.demoLoad plain 4 8) [.cc 0 1 1] = some s ∧
    Engine.step plain s (.cc 0 121 0) = some t ∧ Layer.ccValue s.midi 1 = 1 ∧ Layer.ccValue t.midi 1 = 0 ∧
    (List.range 512).filter (changed [.cc 0 1 1, .render 64 (fun _ => ⟨none, false, false, 0⟩), .cc 0 121 0]).this = [121] := by
  have hs : ((run plain (Engine.demoLoad plain 4 8) [.cc 0 1 1]).map (fun s => (Layer.ccValue s.midi 1, s.midi.cc 1))) = some (1, [⟨0, 1⟩]) := by
    decide +kernel
  cases hr : run plain (Engine.demoLoad plain 4 8) [.cc 0 1 1] with
  | none => rw [hr] at hs; cases hs
  | some s =>
    rw [hr] at hs
    simp only [Option.map_some, Option.some.injEq, Prod.mk.injEq] at hs
    have hst : Engine.step plain s (.cc 0 121 0) = some (Engine.resetAllControllers plain s 0) := by
      simp only [Engine.step, Engine.performHdcc, true_and, if_true]
    have hh : Engine.Holds s.midi 0 1 1 := by
      refine ⟨?_, ?_, ?_⟩ <;> rw [hs.2]
      · exact Midi.good_single _
      · simp
      · simp [Midi.backValue]
    have h2 := Engine.step_holds (c := plain) (op := .cc 0 121 0) (by decide) hh (fun d hd => by
      simp only [Engine.delayOf, Option.some.injEq] at hd; omega) hst
    refine ⟨s, _, rfl, hst, hs.1, ?_, by decide +kernel⟩
    rw [h2.ccValue]
    decide +kernel

/-- **Message violated**: a value set with the message `/cc&/value` is a change of the controller, and is not told. -/
theorem message_violated :
    let s := Engine.demoLoad plain 4 8
    Layer.ccValue s.midi 1 = 0 ∧ Layer.ccValue (valueMessage s 0 1 1).midi 1 = 1 ∧ (changed []).this 1 = false := by
  decide +kernel

/-- **Notes violated**: a note-on sets the controller 131 to its velocity, and no change is told. -/
theorem note_violated :
    ((run plain (Engine.demoLoad plain 4 8) [.noteOn 0 60 1]).map (fun s => Layer.ccValue s.midi 131)) = some 1 ∧
    Layer.ccValue (Engine.demoLoad plain 4 8).midi 131 = 0 ∧ (changed [.noteOn 0 60 1]).this 131 = false := by
  decide +kernel

end Verif.Slots
