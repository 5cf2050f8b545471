import Verif.Pan.Props

/-!
Properties of the effects: the width effect (C86), over the real numbers, as the panning of a voice.
-/
namespace Verif.Effects
open Verif.Pan Real

/-! ### Model -/

/-- One frame of `Width::process` for the value of `_width` (Width.cpp:39-62). -/
noncomputable def widthFrame (width l r : ℝ) : Option (ℝ × ℝ) := do
  let w := clamp ((width + 100) * (1 / 200)) 0 1
  let coeff1 ← panLookup w
  let coeff2 ← panLookup (1 - w)
  return (l * coeff2 + r * coeff1, l * coeff1 + r * coeff2)

/-- `_width` after the opcodes of the effect (Width.h:45, Width.cpp:64-77): 100 without `width=`; with it, the value as
`Default::width` normalizes it, whatever its bounds (Defaults.cpp:92, Defaults.h:84-113, Opcode.cpp:214-232). -/
noncomputable def widthMember : List ℝ → ℝ
  | [] => 100
  | v :: vs => ((v :: vs).getLast (by simp)) / 100

/-! ### C86 -/

/-- What a width effect should make of a frame: a width of 100 % leaves it, -100 % exchanges the channels, 0 % makes them equal. -/
def WidthLaw (effect : ℝ → ℝ → ℝ → Option (ℝ × ℝ)) : Prop :=
  ∀ l r, effect 100 l r = some (l, r) ∧ effect (-100) l r = some (r, l) ∧
    effect 0 l r = some ((l + r) * (√2 / 2), (l + r) * (√2 / 2))

theorem widthFrame_eq (width l r : ℝ) :
    widthFrame width l r = tickWidth (width / 100) l r := by
  have e : (width + 100) * (1 / 200) = (width / 100 + 1) * (1 / 2) := by ring
  simp only [widthFrame, tickWidth, e]

/-- C86 (partial): taken in percent, the member does follow the law, so that the effect without opcode leaves the signal alone.
Missing: the opcode, see `width_opcode_violated`. -/
theorem width_law_partial : WidthLaw widthFrame ∧ ∀ l r, widthFrame (widthMember []) l r = some (l, r) := by
  have h : WidthLaw widthFrame := by
    intro l r
    obtain ⟨h1, h2, h3⟩ := width_settings l r
    refine ⟨?_, ?_, ?_⟩
    · rw [widthFrame_eq]; exact h1 _ (by norm_num)
    · rw [widthFrame_eq]; exact h2 _ (by norm_num)
    · rw [widthFrame_eq, zero_div]; exact h3
  exact ⟨h, fun l r => (h l r).1⟩

theorem cos_large {p : ℝ} (h0 : 0 ≤ p) (h1 : p ≤ 101 / 200) : 1 / 2 < cos (entry p * θ) := by
  have hb : entry p ≤ 2068 := by
    have : entry p < 2069 := by
      unfold entry
      rw [Int.floor_lt]
      push_cast
      linarith
    omega
  have hn : (0 : ℝ) ≤ entry p := by exact_mod_cast (entry_bounds h0 (by linarith)).1
  have hb' : (entry p : ℝ) ≤ 2068 := by exact_mod_cast hb
  have t := θ_pos
  have f := θ_full
  rw [← cos_pi_div_three]
  apply cos_lt_cos_of_nonneg_of_le_pi
  · positivity
  · have := pi_pos; linarith
  · have := pi_pos
    nlinarith

/-- C86 is violated: whatever the width asked for by the opcode, from -100 % to 100 %, the effect mixes more than half of each
channel into both. The value is divided by 100 when it is read and once more when it is used. -/
theorem width_opcode_violated :
    (∀ v, -100 ≤ v → v ≤ 100 → ∃ a b, 1 / 2 < a ∧ 1 / 2 < b ∧
      ∀ l r, widthFrame (widthMember [v]) l r = some (l * a + r * b, l * b + r * a)) ∧
    ¬ WidthLaw (fun v => widthFrame (widthMember [v])) := by
  have main : ∀ v, -100 ≤ v → v ≤ 100 → ∃ a b : ℝ, 1 / 2 < a ∧ 1 / 2 < b ∧
      ∀ l r, widthFrame (widthMember [v]) l r = some (l * a + r * b, l * b + r * a) := by
    intro v h0 h1
    have e : clamp ((widthMember [v] + 100) * (1 / 200)) 0 1 = (v / 100 + 100) / 200 := by
      simp only [clamp, widthMember, List.getLast_singleton]
      rw [min_eq_left (by linarith), max_eq_right (by linarith)]
      ring
    refine ⟨cos (entry (1 - (v / 100 + 100) / 200) * θ), cos (entry ((v / 100 + 100) / 200) * θ), ?_, ?_, ?_⟩
    · exact cos_large (by linarith) (by linarith)
    · exact cos_large (by linarith) (by linarith)
    · intro l r
      simp only [widthFrame, e]
      rw [lookup_inside (by linarith) (by linarith), lookup_inside (by linarith) (by linarith)]
      rfl
  refine ⟨main, fun h => ?_⟩
  obtain ⟨a, b, ha, hb, hf⟩ := main 100 (by norm_num) le_rfl
  have h1 := (h 1 0).1
  simp only [] at h1
  rw [hf] at h1
  simp only [Option.some.injEq, Prod.mk.injEq] at h1
  linarith [h1.2]

/-- The last of several `width=` counts; asked for a swap, the effect mixes instead. -/
example : widthMember [30, -100] = -1 := by norm_num [widthMember]

end Verif.Effects
