import Verif.VoiceFilter.Props

/-!
# The filter and equalizer effects

C126, effects: an `<effect>` of type `filter` or `eq` applies its filter, under the constant
controls of the header and at the rate in force, to all the sound since the last reset, whatever
happened before that reset and however the sound is cut into blocks.
-/

namespace Verif.VoiceFilter

open Verif.Filter

/-- The contents of `fx::Filter` and `fx::Eq` (`effects/Filter.h`, `effects/Eq.h`). -/
structure Fx (C D : Type) where
  rate : ℝ
  st : St C D

/-- What the engine does with an effect. -/
inductive FxOp where
  | setSampleRate (r : ℝ)
  | clear
  | process (b : List (List ℝ))

/-- `setSampleRate`, `clear` and `process` (`effects/Filter.cpp:38-66`, `95-98`;
`effects/Eq.cpp:36-64`, `93-96`).  `F` is the class chosen by the type, at a rate; `s` its
smoothing pole.  The work buffer is as long as the block (`setSamplesPerBlock`). -/
def fxStep {C D : Type} (F : ℝ → Dsp C D) (s : ℝ → ℝ) (p : Ctl) (f : Fx C D) :
    FxOp → Fx C D × List (List ℝ)
  | .setSampleRate r => (⟨r, prepare (F r) p 2⟩, [])
  | .clear => (⟨f.rate, prepare (F f.rate) p 2⟩, [])
  | .process b =>
    let r := modulated (F f.rate) (s f.rate) (fun _ => p) f.st b
    (⟨f.rate, r.1⟩, r.2)

/-- A history: the final state and all the sound put out. -/
def fxRun {C D : Type} (F : ℝ → Dsp C D) (s : ℝ → ℝ) (p : Ctl) (f : Fx C D) :
    List FxOp → Fx C D × List (List ℝ)
  | [] => (f, [])
  | o :: os =>
    let r := fxStep F s p f o
    let t := fxRun F s p r.1 os
    (t.1, r.2 ++ t.2)

/-- The rate in force after a history. -/
def lastRate (r : ℝ) : List FxOp → ℝ
  | [] => r
  | .setSampleRate r' :: os => lastRate r' os
  | _ :: os => lastRate r os

section
variable {C D : Type} {F : ℝ → Dsp C D}

lemma fxRun_rate (s : ℝ → ℝ) (p : Ctl) (f : Fx C D) (os : List FxOp) :
    (fxRun F s p f os).1.rate = lastRate f.rate os := by
  induction os generalizing f with
  | nil => rfl
  | cons o os ih => cases o <;> simp only [fxRun, fxStep, lastRate, ih]

lemma fxRun_append (s : ℝ → ℝ) (p : Ctl) (f : Fx C D) (os os' : List FxOp) :
    fxRun F s p f (os ++ os')
      = ((fxRun F s p (fxRun F s p f os).1 os').1,
        (fxRun F s p f os).2 ++ (fxRun F s p (fxRun F s p f os).1 os').2) := by
  induction os generalizing f with
  | nil => simp [fxRun]
  | cons o os ih => simp [fxRun, ih, List.append_assoc]

lemma fxRun_blocks (hF : ∀ r, Lawful (F r)) (s : ℝ → ℝ) (p : Ctl) (r : ℝ)
    (x : ℕ → ℕ → ℝ) (n : ℕ) (bs : List (List (List ℝ)))
    (h : ∀ i, i < bs.flatten.length →
      bs.flatten.getD i [] = (List.range 2).map (fun j => x j (n + i))) :
    (fxRun F s p ⟨r, at_ (F r) p 2 x n⟩ (bs.map .process)).2
      = (List.range bs.flatten.length).map (fun i => (List.range 2).map
          (fun j => out (F r) p (x j) (n + i))) := by
  induction bs generalizing n with
  | nil => simp [fxRun]
  | cons b bs ih =>
    have hb : ∀ i, i < b.length →
        b.getD i [] = (List.range 2).map (fun j => x j (n + i)) := by
      intro i hi
      have := h i (by simp only [List.flatten_cons, List.length_append]; omega)
      rw [← this, List.flatten_cons, List.getD_eq_getElem?_getD, List.getD_eq_getElem?_getD,
        List.getElem?_append_left hi]
    simp only [List.map_cons, fxRun, fxStep, control_law]
    rw [compute_at (hF r) (s r) p 2 x n b hb]
    rw [ih (n + b.length) (fun i hi => by
      have := h (b.length + i)
        (by simp only [List.flatten_cons, List.length_append]; omega)
      rw [List.flatten_cons, List.getD_eq_getElem?_getD,
        List.getElem?_append_right (by omega)] at this
      rw [List.getD_eq_getElem?_getD]
      rw [Nat.add_sub_cancel_left] at this
      simpa [Nat.add_assoc] using this)]
    rw [List.flatten_cons, List.length_append, List.range_add, List.map_append, List.map_map]
    simp [Function.comp_def, Nat.add_assoc]

/-- C126, effects: after any history, a reset (a new sample rate, or `clear`) followed by blocks
gives, on each channel, the output of the filter at the rate in force fed that channel's sound
since the reset. -/
theorem effect_output (hF : ∀ r, Lawful (F r)) (s : ℝ → ℝ) (p : Ctl) (f : Fx C D)
    (os : List FxOp) (reset : FxOp) (hr : ∀ b, reset ≠ .process b)
    (bs : List (List (List ℝ))) (hb : ∀ x ∈ bs.flatten, x.length = 2) :
    (fxRun F s p f (os ++ reset :: bs.map .process)).2
      = (fxRun F s p f os).2
        ++ (List.range bs.flatten.length).map (fun i => (List.range 2).map
          (fun j => out (F (lastRate f.rate (os ++ [reset]))) p (signal bs.flatten j) i)) := by
  rw [fxRun_append]
  have hrate := fxRun_rate (F := F) s p f (os ++ [reset])
  have hst : (fxStep F s p (fxRun F s p f os).1 reset).1
      = ⟨lastRate f.rate (os ++ [reset]),
          at_ (F (lastRate f.rate (os ++ [reset]))) p 2 (fun j => signal bs.flatten j) 0⟩ := by
    rw [fxRun_append] at hrate
    cases reset with
    | process b => exact absurd rfl (hr b)
    | setSampleRate r =>
      simp only [fxRun, fxStep] at hrate ⊢
      rw [← hrate, prepare_at (hF _)]
    | clear =>
      simp only [fxRun, fxStep] at hrate ⊢
      rw [← hrate, prepare_at (hF _)]
  have ho : (fxStep F s p (fxRun F s p f os).1 reset).2 = [] := by
    cases reset with
    | process b => exact absurd rfl (hr b)
    | setSampleRate r => rfl
    | clear => rfl
  congr 1
  simp only [fxRun]
  rw [ho, hst, List.nil_append, fxRun_blocks hF]
  · simp
  · intro i hi
    have hlen := hb (bs.flatten[i]) (List.getElem_mem hi)
    rw [List.getD_eq_getElem?_getD, List.getElem?_eq_getElem hi, Option.getD_some]
    conv_lhs => rw [list_eq_map_range (bs.flatten[i])]
    rw [hlen]
    simp only [signal, List.getD_eq_getElem?_getD, List.getElem?_eq_getElem hi,
      Option.getD_some, zero_add]

end

/-- Non-vacuity: some sound at 48 kHz, a change to 44.1 kHz, then three frames in two blocks. -/
example (s : ℝ → ℝ) (p : Ctl) (f : Fx ℝ Acc) :
    (fxRun (fun r => onePole .lpf1p r) s p f
      ([.setSampleRate 48000, .process [[1, 1]]]
        ++ .setSampleRate 44100 :: [[[1, 0]], [[2, 5], [3, 7]]].map .process)).2
      = (fxRun (fun r => onePole .lpf1p r) s p f [.setSampleRate 48000, .process [[1, 1]]]).2
        ++ (List.range 3).map (fun i => (List.range 2).map
          (fun j => out (onePole .lpf1p 44100) p (signal [[1, 0], [2, 5], [3, 7]] j) i)) :=
  effect_output (fun r => onePole_lawful .lpf1p r) s p f _ _ (by simp) _ (by simp)

end Verif.VoiceFilter
