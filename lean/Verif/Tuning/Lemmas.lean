import Verif.Tuning.Model
import Mathlib.Tactic.Ring
import Mathlib.Tactic.FieldSimp
import Mathlib.Tactic.Linarith
import Mathlib.Tactic.Push

/-! Lemmas on the model of microtuning. -/
namespace Verif.Tuning

/-- The size of a tone in octaves. -/
noncomputable def Tone.octaves : Tone → ℝ
  | .cents c => (c : ℝ) / 1200
  | .ratio n d => Real.logb 2 ((n : ℝ) / d)

/-- A tone that is a frequency ratio: one in cents, or a fraction above 0. -/
def Tone.Sound : Tone → Prop
  | .cents _ => True
  | .ratio n d => 0 < n * d

/-- The pitch `d`, in octaves above the root, of every degree of a scale: the root, then the tones of the scale, of which the
last is the interval after which the scale repeats, upwards and downwards. -/
structure IsScale (s : List Tone) (d : ℤ → ℝ) : Prop where
  root : d 0 = 0
  tone : ∀ (i : Nat) (t : Tone), s[i]? = some t → d (i + 1) = t.octaves
  period : ∀ j, d (j + s.length) = d j + d s.length

theorem floatValue_sound (t : Tone) (h : t.Sound) : t.floatValue = .num (t.octaves + 1) := by
  cases t with
  | cents c => rfl
  | ratio n d =>
    have hd : (0 : ℝ) < (n : ℝ) / d := by
      have h' : (0 : ℝ) < (n : ℝ) * d := by exact_mod_cast h
      rcases pos_and_pos_or_neg_and_neg_of_mul_pos h' with ⟨a, b⟩ | ⟨a, b⟩
      · exact div_pos a b
      · exact div_pos_of_neg_of_neg a b
    simp [Tone.floatValue, Val.log2, hd, Val.add, Tone.octaves]

theorem floatAt_eq (s : Scale) (d : ℤ → ℝ) (hd : IsScale s.tones d) (hs : ∀ t ∈ s.tones, t.Sound) (i : Nat)
    (hi : i < s.tones.length) : floatAt s i = .num (d (i + 1) + 1) := by
  have hg : s.tones[i]? = some s.tones[i] := List.getElem?_eq_getElem hi
  rw [floatAt, List.getD_eq_getElem?_getD, hg, Option.getD_some, floatValue_sound _ (hs _ (List.getElem_mem hi)),
    hd.tone i _ hg]

theorem period_eq (s : Scale) (d : ℤ → ℝ) (hd : IsScale s.tones d) (hs : ∀ t ∈ s.tones, t.Sound) (h0 : s.tones.length ≠ 0) :
    period s = .num (d s.tones.length) := by
  rw [period, floatAt_eq s d hd hs _ (by omega)]
  have : ((s.tones.length - 1 : Nat) : ℤ) + 1 = s.tones.length := by omega
  rw [this]
  simp [Val.sub, Val.neg, Val.add]

theorem shift (s : List Tone) (d : ℤ → ℝ) (hd : IsScale s d) (j k : ℤ) :
    d (j + k * s.length) = d j + k * d s.length := by
  induction k using Int.induction_on with
  | zero => simp
  | succ i ih =>
    have := hd.period (j + i * s.length)
    have e : j + ((i : ℤ) + 1) * s.length = j + i * s.length + s.length := by ring
    rw [e, this, ih]; push_cast; ring
  | pred i ih =>
    have := hd.period (j + (-(i : ℤ) - 1) * s.length)
    have e : j + (-(i : ℤ) - 1) * s.length + s.length = j + (-(i : ℤ)) * s.length := by ring
    rw [e, ih] at this
    push_cast at this ⊢
    linarith

theorem loopUp_spec (s : List Tone) (d : ℤ → ℝ) (hd : IsScale s d) (h0 : s.length ≠ 0) (p : ℤ) (t : ℝ) :
    ∃ p' t', loopUp s.length (.num (d s.length)) p (.num t) = (p', .num t') ∧ 0 ≤ p' ∧ d p' - t' = d p - t := by
  by_cases hp : p < 0
  · rw [loopUp, if_pos ⟨hp, by omega⟩]
    obtain ⟨p', t', e, h1, h2⟩ := loopUp_spec s d hd h0 (p + s.length) (t + d s.length)
    refine ⟨p', t', e, h1, ?_⟩
    rw [h2, hd.period]; ring
  · rw [loopUp, if_neg (by tauto)]
    exact ⟨p, t, rfl, by omega, rfl⟩
termination_by (-p).toNat
decreasing_by omega

theorem loopDown_spec (s : List Tone) (d : ℤ → ℝ) (hd : IsScale s d) (h0 : s.length ≠ 0) (p : ℤ) (t : ℝ) (hp0 : 0 ≤ p) :
    ∃ p' t', loopDown s.length (.num (d s.length)) p (.num t) = (p', .num t') ∧ 0 ≤ p' ∧ p' ≤ s.length ∧
      d p' - t' = d p - t := by
  by_cases hp : p > s.length
  · rw [loopDown, if_pos ⟨hp, by omega⟩]
    obtain ⟨p', t', e, h1, h2, h3⟩ := loopDown_spec s d hd h0 (p - s.length) (t - d s.length) (by omega)
    refine ⟨p', t', ?_, h1, h2, ?_⟩
    · rw [← e]; simp [Val.sub, Val.neg, Val.add, sub_eq_add_neg]
    · have := hd.period (p - s.length)
      rw [sub_add_cancel] at this
      rw [h3, this]; ring
  · rw [loopDown, if_neg (by tauto)]
    exact ⟨p, t, rfl, by omega, by omega, rfl⟩
termination_by p.toNat
decreasing_by omega

theorem center_eq (s : Scale) (d : ℤ → ℝ) (hd : IsScale s.tones d) (hs : ∀ t ∈ s.tones, t.Sound) (h0 : s.tones.length ≠ 0)
    (root : ℤ) : center s root = .num (d (69 - root)) := by
  rw [center]
  simp only [tuningNote, period_eq s d hd hs h0]
  by_cases hp : 69 - root = 0
  · rw [if_pos hp, hp, hd.root]
  · rw [if_neg hp]
    obtain ⟨p1, t1, e1, h1, r1⟩ := loopUp_spec s.tones d hd h0 (69 - root) 0
    obtain ⟨p2, t2, e2, h2, h2', r2⟩ := loopDown_spec s.tones d hd h0 p1 t1 h1
    simp only [e1, e2]
    have hr : d p2 - t2 = d (69 - root) := by rw [r2, r1]; ring
    by_cases h : p2 = 0
    · rw [if_pos h]
      rw [h, hd.root] at hr
      simp [Val.neg, ← hr]
    · rw [if_neg h, floatAt_eq s d hd hs _ (by omega)]
      have : (((p2 - 1).toNat : ℕ) : ℤ) + 1 = p2 := by omega
      rw [this, ← hr]
      simp [Val.sub, Val.neg, Val.add, sub_eq_add_neg]

theorem entry_eq (s : Scale) (d : ℤ → ℝ) (hd : IsScale s.tones d) (hs : ∀ t ∈ s.tones, t.Sound) (h0 : s.tones.length ≠ 0)
    (root : ℤ) (i : Nat) : entry s root i = .num (1 + d ((i : ℤ) - 256 - root) - d (69 - root)) := by
  rw [entry]
  simp only [tuningNote, period_eq s d hd hs h0, center_eq s d hd hs h0]
  by_cases hi : (i : ℤ) - (256 + 69) = 0
  · rw [if_pos hi]
    have : (i : ℤ) - 256 - root = 69 - root := by omega
    rw [this]; simp
  · rw [if_neg hi]
    obtain ⟨n, hn⟩ : ∃ n, n = s.tones.length := ⟨_, rfl⟩
    have hn0 : (n : ℤ) ≠ 0 := by omega
    have e := Int.mul_tdiv_add_tmod ((i : ℤ) - (256 + root) - 1) n
    have hlt := Int.tmod_lt_of_pos ((i : ℤ) - (256 + root) - 1) (b := (n : ℤ)) (by omega)
    have hgt : -(n : ℤ) < ((i : ℤ) - (256 + root) - 1).tmod n := by
      have := Int.natAbs_tmod ((i : ℤ) - (256 + root) - 1) n
      have := Nat.mod_lt ((i : ℤ) - (256 + root) - 1).natAbs (y := n) (by omega)
      simp only [Int.natAbs_natCast] at *
      omega
    rw [← hn]
    generalize ((i : ℤ) - (256 + root) - 1).tdiv n = q at *
    generalize ((i : ℤ) - (256 + root) - 1).tmod n = r at *
    have main : ∀ r' q' : ℤ, 0 ≤ r' → r' < n → (n : ℤ) * q' + r' = (i : ℤ) - (256 + root) - 1 →
        ((floatAt s r'.toNat).add (Val.mulInt q' (.num (d n)))).sub (.num (d (69 - root))) =
          .num (1 + d ((i : ℤ) - 256 - root) - d (69 - root)) := by
      intro r' q' h1 h2 h3
      rw [floatAt_eq s d hd hs _ (by omega)]
      have e1 : ((r'.toNat : ℕ) : ℤ) + 1 = r' + 1 := by omega
      have e2 : (i : ℤ) - 256 - root = (r' + 1) + q' * s.tones.length := by
        rw [← hn]; linarith [mul_comm (n : ℤ) q']
      rw [e1, e2, shift s.tones d hd, ← hn]
      simp only [Val.sub, Val.neg, Val.add, Val.mulInt]
      congr 1; ring
    by_cases hr : r < 0
    · simp only [if_pos hr]
      exact main _ _ (by omega) (by omega) (by linarith [mul_sub (n : ℤ) q 1])
    · simp only [if_neg hr]
      exact main _ _ (by omega) (by omega) e

end Verif.Tuning
