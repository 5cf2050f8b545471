import Verif.Reverb.Model
import Verif.Reverb.Gain
import Mathlib.Data.Finset.Max

/-!
# Changing the length of a delay by a cross-fade

A line is read at two places whose weights add up to one.  `read_energy` bounds the energy that is
read when the places only change while they have no weight, cross-fades last `N` frames, and the two
places are at most `J` frames apart during one.  The rest shows that `fade` works like this.
-/

namespace Verif.Reverb

open Finset

/-- The number of frames that read a given sample while the weights move. -/
lemma card_reads {N J n₀ T m : ℕ} {A B : ℕ → ℕ} {Fd : ℕ → ℕ → Prop}
    (hin : ∀ σ n, Fd σ n → σ ≤ n ∧ n < σ + N)
    (hJ : ∀ σ n, n₀ ≤ n → Fd σ n → max (A n) (B n) ≤ min (A n) (B n) + J)
    (hsame : ∀ σ n n', Fd σ n → Fd σ n' → A n = A n' ∧ B n = B n')
    (hsep : ∀ σ σ' n n', Fd σ n → Fd σ' n' → σ < σ' → σ + N ≤ σ')
    (hrange : ∀ σ σ' n n', n₀ ≤ n → n₀ ≤ n' → Fd σ n → Fd σ' n' →
      max (A n') (B n') ≤ min (A n) (B n) + N)
    (S : Finset ℕ) (hS : ∀ n ∈ S, n₀ ≤ n ∧ n < T ∧ (∃ σ, Fd σ n) ∧
      m + min (A n) (B n) < n ∧ n ≤ m + max (A n) (B n)) :
    #S ≤ 2 * J := by
  rcases S.eq_empty_or_nonempty with rfl | hne
  · simp
  obtain ⟨n₁, hn₁, hmin⟩ := S.exists_minimal hne
  obtain ⟨n₂, hn₂, hmax⟩ := S.exists_maximal hne
  have hmin' : ∀ n ∈ S, n₁ ≤ n := fun n hn => by
    rcases le_total n₁ n with h | h
    · exact h
    · exact hmin hn h
  have hmax' : ∀ n ∈ S, n ≤ n₂ := fun n hn => by
    rcases le_total n n₂ with h | h
    · exact h
    · exact hmax hn h
  obtain ⟨b₁, -, ⟨σ₁, f₁⟩, l₁, u₁⟩ := hS n₁ hn₁
  obtain ⟨b₂, -, ⟨σ₂, f₂⟩, l₂, u₂⟩ := hS n₂ hn₂
  have hd := hrange σ₁ σ₂ n₁ n₂ b₁ b₂ f₁ f₂
  have hsub : S ⊆ Ioc (m + min (A n₁) (B n₁)) (m + max (A n₁) (B n₁))
      ∪ Ioc (m + min (A n₂) (B n₂)) (m + max (A n₂) (B n₂)) := by
    intro n hn
    obtain ⟨b, -, ⟨σ, f⟩, l, u⟩ := hS n hn
    have e₁ := hmin' n hn
    have e₂ := hmax' n hn
    rw [mem_union, mem_Ioc, mem_Ioc]
    by_cases h₁ : σ = σ₁
    · subst h₁
      obtain ⟨hA, hB⟩ := hsame σ n n₁ f f₁
      left; rw [← hA, ← hB]; exact ⟨l, u⟩
    by_cases h₂ : σ = σ₂
    · subst h₂
      obtain ⟨hA, hB⟩ := hsame σ n n₂ f f₂
      right; rw [← hA, ← hB]; exact ⟨l, u⟩
    exfalso
    have i := hin σ n f
    have i₁ := hin σ₁ n₁ f₁
    have i₂ := hin σ₂ n₂ f₂
    have g₁ : σ₁ + N ≤ σ := by
      rcases lt_or_gt_of_ne h₁ with h | h
      · have := hsep σ σ₁ n n₁ f f₁ h; omega
      · exact hsep σ₁ σ n₁ n f₁ f h
    have g₂ : σ + N ≤ σ₂ := by
      rcases lt_or_gt_of_ne h₂ with h | h
      · exact hsep σ σ₂ n n₂ f f₂ h
      · have := hsep σ₂ σ n₂ n f₂ f h; omega
    omega
  refine le_trans (card_le_card hsub) (le_trans (card_union_le _ _) ?_)
  rw [Nat.card_Ioc, Nat.card_Ioc]
  have := hJ σ₁ n₁ b₁ f₁
  have := hJ σ₂ n₂ b₂ f₂
  omega

/-- The energy read from a line through a cross-fade. -/
lemma read_energy {N J n₀ M : ℕ} (hN : 0 < N) {d : ℕ → ℝ} {A B : ℕ → ℕ} {Fd : ℕ → ℕ → Prop}
    (hM : M + 1 ≤ n₀) (hAM : ∀ n, A n ≤ M) (hBM : ∀ n, B n ≤ M)
    (hd : ∀ n, 0 ≤ d n ∧ d n ≤ 1)
    (hA : ∀ n, A (n + 1) ≠ A n → d n = 1) (hB : ∀ n, B (n + 1) ≠ B n → d n = 0)
    (hF : ∀ n, d (n + 1) ≠ d n → ∃ σ, Fd σ (n + 1))
    (hstep : ∀ n, |d (n + 1) - d n| ≤ 1 / N)
    (hin : ∀ σ n, Fd σ n → σ ≤ n ∧ n < σ + N)
    (hJ : ∀ σ n, n₀ ≤ n → Fd σ n → max (A n) (B n) ≤ min (A n) (B n) + J)
    (hsame : ∀ σ n n', Fd σ n → Fd σ n' → A n = A n' ∧ B n = B n')
    (hsep : ∀ σ σ' n n', Fd σ n → Fd σ' n' → σ < σ' → σ + N ≤ σ')
    (hrange : ∀ σ σ' n n', n₀ ≤ n → n₀ ≤ n' → Fd σ n → Fd σ' n' →
      max (A n') (B n') ≤ min (A n) (B n) + N)
    {v : ℕ → ℝ} (hv : ∀ n, 0 ≤ v n) (T : ℕ) (hT : n₀ ≤ T) :
    ∑ n ∈ Ico n₀ T, ((1 - d n) * v (n - A n) + d n * v (n - B n))
      ≤ (1 + 2 * J / N) * ∑ n ∈ range T, v n := by
  classical
  set F : ℕ → ℝ := fun k => ∑ n ∈ range k, v n with hFd
  have hFm : Monotone F := fun a b h =>
    sum_le_sum_of_subset_of_nonneg (range_mono h) fun n _ _ => hv n
  have hF0 : ∀ k, 0 ≤ F k := fun k => sum_nonneg fun n _ => hv n
  set P : ℕ → ℝ := fun n => (1 - d n) * F (n + 1 - A n) + d n * F (n + 1 - B n) with hP
  set R : ℕ → ℝ := fun n => (d n - d (n - 1)) * (F (n - A n) - F (n - B n)) with hR
  have hterm : ∀ n, n₀ ≤ n → (1 - d n) * v (n - A n) + d n * v (n - B n) = P n - P (n - 1) + R n := by
    intro n hn
    have h1 := hAM n
    have h2 := hBM n
    have e1 : F (n + 1 - A n) = F (n - A n) + v (n - A n) := by
      rw [show n + 1 - A n = (n - A n) + 1 by omega, hFd]
      simp only
      rw [sum_range_succ]
    have e2 : F (n + 1 - B n) = F (n - B n) + v (n - B n) := by
      rw [show n + 1 - B n = (n - B n) + 1 by omega, hFd]
      simp only
      rw [sum_range_succ]
    obtain ⟨k, rfl⟩ : ∃ k, n = k + 1 := ⟨n - 1, by omega⟩
    have e3 : (1 - d k) * F (k + 1 - A k) = (1 - d k) * F (k + 1 - A (k + 1)) := by
      by_cases h : A (k + 1) = A k
      · rw [h]
      · rw [hA k h]; ring
    have e4 : d k * F (k + 1 - B k) = d k * F (k + 1 - B (k + 1)) := by
      by_cases h : B (k + 1) = B k
      · rw [h]
      · rw [hB k h]; ring
    simp only [hP, hR]
    rw [show k + 1 - 1 = k by omega, e1, e2, e3, e4]
    ring
  have hsum : ∑ n ∈ Ico n₀ T, ((1 - d n) * v (n - A n) + d n * v (n - B n))
      = P (T - 1) - P (n₀ - 1) + ∑ n ∈ Ico n₀ T, R n := by
    clear hF hstep
    induction T, hT using Nat.le_induction with
    | base => simp
    | succ S hS ih =>
      rw [sum_Ico_succ_top hS, sum_Ico_succ_top hS, ih, hterm S hS]
      simp only [Nat.add_sub_cancel]
      ring
  have hP0 : 0 ≤ P (n₀ - 1) := by
    have := hd (n₀ - 1)
    exact add_nonneg (mul_nonneg (by linarith) (hF0 _)) (mul_nonneg (by linarith) (hF0 _))
  have hPT : P (T - 1) ≤ F T := by
    have h := hd (T - 1)
    have h1 : F (T - 1 + 1 - A (T - 1)) ≤ F T := hFm (by omega)
    have h2 : F (T - 1 + 1 - B (T - 1)) ≤ F T := hFm (by omega)
    have h3 := mul_le_mul_of_nonneg_left h1 (show 0 ≤ 1 - d (T - 1) by linarith)
    have h4 := mul_le_mul_of_nonneg_left h2 h.1
    simp only [hP]
    linarith
  have hNr : (0 : ℝ) < N := by exact_mod_cast hN
  -- what a moving weight adds
  have hRn : ∀ n ∈ Ico n₀ T, R n ≤ ∑ m ∈ range T,
      if (∃ σ, Fd σ n) ∧ m + min (A n) (B n) < n ∧ n ≤ m + max (A n) (B n) then 1 / N * v m else 0 := by
    intro n hn
    rw [mem_Ico] at hn
    have h1 := hAM n
    have h2 := hBM n
    obtain ⟨k, rfl⟩ : ∃ k, n = k + 1 := ⟨n - 1, by omega⟩
    by_cases hdk : d (k + 1) = d k
    · simp only [hR]
      rw [show k + 1 - 1 = k by omega, hdk, sub_self, zero_mul]
      refine sum_nonneg fun m _ => ?_
      split_ifs
      · exact mul_nonneg (by positivity) (hv m)
      · exact le_refl _
    have hfd := hF k hdk
    have hdiff : |F (k + 1 - A (k + 1)) - F (k + 1 - B (k + 1))|
        ≤ ∑ m ∈ Ico (k + 1 - max (A (k + 1)) (B (k + 1))) (k + 1 - min (A (k + 1)) (B (k + 1))), v m := by
      have hI : ∀ a b : ℕ, a ≤ b → F b - F a = ∑ m ∈ Ico a b, v m := fun a b h => by
        rw [sum_Ico_eq_sub _ h]
      rcases le_total (A (k + 1)) (B (k + 1)) with h | h
      · rw [max_eq_right h, min_eq_left h, ← hI _ _ (by omega), abs_of_nonneg]
        have := hFm (show k + 1 - B (k + 1) ≤ k + 1 - A (k + 1) by omega)
        linarith
      · rw [max_eq_left h, min_eq_right h, ← hI _ _ (by omega), abs_sub_comm, abs_of_nonneg]
        have := hFm (show k + 1 - A (k + 1) ≤ k + 1 - B (k + 1) by omega)
        linarith
    calc R (k + 1) ≤ |R (k + 1)| := le_abs_self _
      _ = |d (k + 1) - d k| * |F (k + 1 - A (k + 1)) - F (k + 1 - B (k + 1))| := by
        simp only [hR]
        rw [show k + 1 - 1 = k by omega, abs_mul]
      _ ≤ 1 / N * ∑ m ∈ Ico (k + 1 - max (A (k + 1)) (B (k + 1)))
          (k + 1 - min (A (k + 1)) (B (k + 1))), v m :=
        mul_le_mul (hstep k) hdiff (abs_nonneg _) (by positivity)
      _ ≤ _ := by
        rw [mul_sum, ← sum_filter]
        refine sum_le_sum_of_subset_of_nonneg ?_ fun m _ _ => mul_nonneg (by positivity) (hv m)
        intro m hm
        rw [mem_Ico] at hm
        rw [mem_filter, mem_range]
        have hx1 : max (A (k + 1)) (B (k + 1)) ≤ M := max_le h1 h2
        refine ⟨by omega, hfd, by omega, by omega⟩
  have hRs : ∑ n ∈ Ico n₀ T, R n ≤ 2 * J / N * F T := by
    refine le_trans (sum_le_sum hRn) ?_
    rw [sum_comm, hFd]
    simp only
    rw [mul_sum]
    refine sum_le_sum fun m _ => ?_
    rw [← sum_filter, sum_const, nsmul_eq_mul]
    have hc := card_reads (m := m) (T := T) hin hJ hsame hsep hrange
      {n ∈ Ico n₀ T | (∃ σ, Fd σ n) ∧ m + min (A n) (B n) < n ∧ n ≤ m + max (A n) (B n)}
      (fun n hn => by
        rw [mem_filter, mem_Ico] at hn
        exact ⟨hn.1.1, hn.1.2, hn.2.1, hn.2.2.1, hn.2.2.2⟩)
    have hc' : ((#{n ∈ Ico n₀ T | (∃ σ, Fd σ n) ∧ m + min (A n) (B n) < n
        ∧ n ≤ m + max (A n) (B n)} : ℕ) : ℝ) ≤ 2 * J := by exact_mod_cast hc
    have := mul_le_mul_of_nonneg_right hc' (show 0 ≤ 1 / (N : ℝ) * v m from
      mul_nonneg (by positivity) (hv m))
    calc _ ≤ 2 * (J : ℝ) * (1 / N * v m) := this
      _ = _ := by ring
  rw [hsum]
  have : (1 + 2 * (J : ℝ) / N) * ∑ n ∈ range T, v n = F T + 2 * J / N * F T := by
    simp only [hFd]; ring
  linarith

/-! ## The cross-fade of the code -/

/-- The change of delay before frame `n`, when frame `n` asks for `trg n`. -/
noncomputable def fades (c : ℝ) (trg : ℕ → ℤ) : ℕ → Fade
  | 0 => .zero
  | n + 1 => fade c (trg n) (fades c trg n)

/-- Before frame `m`, a cross-fade that frame `σ` began is under way (towards `b` if `up`). -/
structure At (N : ℕ) (trg : ℕ → ℤ) (f : ℕ → Fade) (up : Bool) (σ m : ℕ) : Prop where
  lt : σ < m
  le : m ≤ σ + N
  inc : (f m).inc = if up then 1 / (N : ℝ) else 0 - 1 / (N : ℝ)
  pos : (f m).pos = if up then ((m : ℝ) - σ) / N else 1 - ((m : ℝ) - σ) / N
  goal : (if up then (f m).b else (f m).a) = trg σ

/-- What holds before frame `m`: nothing has happened, or a cross-fade is under way, or the delay rests
on `b`, or on `a`. -/
def Inv (N n₁ : ℕ) (J : ℤ) (trg : ℕ → ℤ) (f : ℕ → Fade) (m : ℕ) : Prop :=
  m = 0 ∨
  (∃ σ up, At N trg f up σ m ∧ (∀ k, σ < k → k ≤ m →
      At N trg f up σ k ∧ (f k).a = (f m).a ∧ (f k).b = (f m).b)
    ∧ (n₁ + N + 1 ≤ σ → |(f m).a - (f m).b| ≤ J)) ∨
  ((f m).inc = 0 ∧ (f m).pos = 1 ∧
    (((f m).b = trg (m - 1) ∧ 1 ≤ m) ∨ (N + 1 ≤ m ∧ (f m).b = trg (m - 1 - N)))) ∨
  ((f m).inc = 0 ∧ (f m).pos = 0 ∧
    (((f m).a = trg (m - 1) ∧ 1 ≤ m) ∨ (N + 1 ≤ m ∧ (f m).a = trg (m - 1 - N))))

variable {N n₁ : ℕ} {J : ℤ} {trg : ℕ → ℤ}

/-- A cross-fade goes on until its `N` frames are over. -/
lemma at_step (hN : 0 < N) {up : Bool} {σ m : ℕ} (h : At N trg (fades (1 / (N : ℝ)) trg) up σ m)
    (hm : m < σ + N) :
    At N trg (fades (1 / (N : ℝ)) trg) up σ (m + 1) ∧
      (fades (1 / (N : ℝ)) trg (m + 1)).a = (fades (1 / (N : ℝ)) trg m).a ∧
      (fades (1 / (N : ℝ)) trg (m + 1)).b = (fades (1 / (N : ℝ)) trg m).b := by
  have hNr : (0 : ℝ) < N := by exact_mod_cast hN
  have h1 : (0 : ℝ) < (m : ℝ) - σ := by
    have : (σ : ℝ) < m := by exact_mod_cast h.lt
    linarith
  have h2 : (m : ℝ) - σ + 1 ≤ N := by
    have : (m : ℝ) + 1 ≤ σ + N := by exact_mod_cast hm
    linarith
  have p1 : 0 < ((m : ℝ) - σ) / N := by positivity
  have p2 : ((m : ℝ) - σ) / N + 1 / N ≤ 1 := by
    rw [← add_div, div_le_one hNr]; exact h2
  have p3 : (0 : ℝ) < 1 / N := by positivity
  have hinc := h.inc
  have hpos := h.pos
  have hgoal := h.goal
  set f := fades (1 / (N : ℝ)) trg with hf
  have hne : (f m).inc ≠ 0 := by
    rw [hinc]; split_ifs <;> [exact p3.ne'; linarith]
  have hin : 0 < (f m).pos ∧ (f m).pos < 1 := by
    rw [hpos]
    split_ifs
    · exact ⟨p1, by linarith⟩
    · exact ⟨by linarith, by linarith⟩
  have hs : f (m + 1) = fade (1 / (N : ℝ)) (trg m) (f m) := rfl
  have hi' : (f (m + 1)).inc = (f m).inc := by
    rw [hs, fade]
    simp only
    rw [if_pos hne, if_pos hin]
  have hp' : (f (m + 1)).pos = max 0 (min 1 ((f m).pos + (f m).inc)) := by
    rw [hs, fade]
    simp only
    rw [if_pos hne, if_pos hin]
  have ha' : (f (m + 1)).a = (f m).a := by
    rw [hs, fade]
    simp only
    rw [if_neg (fun hh => absurd hh.1 (not_le.2 hin.2))]
  have hb' : (f (m + 1)).b = (f m).b := by
    rw [hs, fade]
    simp only
    rw [if_neg (fun hh => absurd hh.1 (not_le.2 hin.1))]
  refine ⟨⟨by have := h.lt; omega, by omega, by rw [hi', hinc], ?_, by rw [ha', hb']; exact hgoal⟩, ha', hb'⟩
  rw [hp', hpos, hinc]
  push_cast
  split_ifs
  · rw [min_eq_right (by linarith), max_eq_right (by linarith)]
    ring
  · rw [min_eq_right (by linarith), max_eq_right (by linarith)]
    ring

/-- A cross-fade goes on until its `N` frames are over. -/
lemma at_later (hN : 0 < N) {up : Bool} {σ m : ℕ} (h : At N trg (fades (1 / (N : ℝ)) trg) up σ m)
    {k : ℕ} (hk : m ≤ k) (hk' : k ≤ σ + N) :
    At N trg (fades (1 / (N : ℝ)) trg) up σ k ∧
      (fades (1 / (N : ℝ)) trg k).a = (fades (1 / (N : ℝ)) trg m).a ∧
      (fades (1 / (N : ℝ)) trg k).b = (fades (1 / (N : ℝ)) trg m).b := by
  induction k, hk using Nat.le_induction with
  | base => exact ⟨h, rfl, rfl⟩
  | succ k hk ih =>
    obtain ⟨h1, h2, h3⟩ := ih (by omega)
    obtain ⟨g1, g2, g3⟩ := at_step hN h1 (by omega)
    exact ⟨g1, g2.trans h2, g3.trans h3⟩

/-- Only one cross-fade is under way at a time. -/
lemma at_unique (hN : 0 < N) {f : ℕ → Fade} {up up' : Bool} {σ σ' m : ℕ} (h : At N trg f up σ m)
    (h' : At N trg f up' σ' m) : up = up' ∧ σ = σ' := by
  have hNr : (0 : ℝ) < N := by exact_mod_cast hN
  have p : (0 : ℝ) < 1 / N := by positivity
  have e := h.inc.symm.trans h'.inc
  have q := h.pos.symm.trans h'.pos
  have hup : up = up' := by
    rw [one_div] at p
    cases up <;> cases up' <;> simp at e ⊢ <;> linarith
  subst hup
  refine ⟨rfl, ?_⟩
  have : (m : ℝ) - σ = (m : ℝ) - σ' := by
    cases up
    · simp only [Bool.false_eq_true, if_false] at q
      have : ((m : ℝ) - σ) / N = ((m : ℝ) - σ') / N := by linarith
      field_simp at this
      linarith
    · simp only [if_true] at q
      field_simp at q
      linarith
  have : (σ : ℝ) = σ' := by linarith
  exact_mod_cast this

/-- The invariant. -/
lemma inv_all (hN : 0 < N)
    (hJ : ∀ i j, n₁ ≤ i → i ≤ j → j ≤ i + N + 1 → |trg i - trg j| ≤ J) (m : ℕ) :
    Inv N n₁ J trg (fades (1 / (N : ℝ)) trg) m := by
  have hNr : (0 : ℝ) < N := by exact_mod_cast hN
  have p3 : (0 : ℝ) < 1 / N := by positivity
  have hN1 : (1 : ℝ) ≤ N := by exact_mod_cast hN
  have p4 : 1 / (N : ℝ) ≤ 1 := by rw [div_le_one hNr]; exact hN1
  set f := fades (1 / (N : ℝ)) trg with hf
  have hs : ∀ k, f (k + 1) = fade (1 / (N : ℝ)) (trg k) (f k) := fun k => rfl
  -- the first frame of a cross-fade
  have start : ∀ (k : ℕ) (up : Bool), At N trg f up k (k + 1) →
      (n₁ + N + 1 ≤ k → |(f (k + 1)).a - (f (k + 1)).b| ≤ J) → Inv N n₁ J trg f (k + 1) := by
    intro k up h hj
    refine Or.inr (Or.inl ⟨k, up, h, fun j h1 h2 => ?_, hj⟩)
    have : j = k + 1 := by omega
    subst this
    exact ⟨h, rfl, rfl⟩
  -- from rest on `a`
  have lo : ∀ k, (f k).inc = 0 → (f k).pos = 0 →
      (n₁ + N + 1 ≤ k → |(f k).a - trg k| ≤ J) → Inv N n₁ J trg f (k + 1) := by
    intro k hi hp hj
    by_cases ht : trg k = (f k).a
    · refine Or.inr (Or.inr (Or.inr ⟨?_, ?_, Or.inl ⟨?_, by omega⟩⟩)) <;>
        rw [hs, fade] <;> simp [hi, hp, ht]
    · have hb : (f (k + 1)).b = trg k := by
        rw [hs, fade]; simp [hp, ne_comm.1 ht]
      have ha : (f (k + 1)).a = (f k).a := by
        rw [hs, fade]; simp [hp]
      refine start k true ⟨by omega, by omega, ?_, ?_, by simp [hb]⟩ fun h => by
        rw [ha, hb]; exact hj h
      · rw [hs, fade]; simp [hi, hp, ht]
      · rw [hs, fade]
        simp only [hi, hp, ht, ne_eq, not_true_eq_false, if_false, not_false_eq_true, and_self, if_true,
          zero_add]
        rw [min_eq_right p4, max_eq_right p3.le]
        push_cast
        ring
  have hi : ∀ k, (f k).inc = 0 → (f k).pos = 1 →
      (n₁ + N + 1 ≤ k → |(f k).b - trg k| ≤ J) → Inv N n₁ J trg f (k + 1) := by
    intro k hi hp hj
    by_cases ht : trg k = (f k).b
    · refine Or.inr (Or.inr (Or.inl ⟨?_, ?_, Or.inl ⟨?_, by omega⟩⟩)) <;>
        rw [hs, fade] <;> simp [hi, hp, ht]
    · have ha : (f (k + 1)).a = trg k := by
        rw [hs, fade]; simp [hp, ne_comm.1 ht]
      have hb : (f (k + 1)).b = (f k).b := by
        rw [hs, fade]; simp [hp]
      refine start k false ⟨by omega, by omega, ?_, ?_, by simp [ha]⟩ fun h => by
        rw [ha, hb, abs_sub_comm]; exact hj h
      · rw [hs, fade]; simp [hi, hp, ht]
      · rw [hs, fade]
        simp only [hi, hp, ht, ne_eq, not_true_eq_false, if_false, not_false_eq_true, and_self, if_true,
          one_ne_zero, false_and, Bool.false_eq_true]
        rw [min_eq_right (by linarith), max_eq_right (by linarith)]
        push_cast
        ring
  induction m with
  | zero => exact Or.inl rfl
  | succ m ih =>
    rcases ih with h0 | ⟨σ, up, hat, hrun, hgap⟩ | ⟨h1, h2, h3⟩ | ⟨h1, h2, h3⟩
    · subst h0
      exact lo 0 rfl rfl (fun h => by omega)
    · rcases Nat.lt_or_ge m (σ + N) with hm | hm
      · obtain ⟨g1, g2, g3⟩ := at_step hN hat hm
        refine Or.inr (Or.inl ⟨σ, up, g1, fun k hk hk' => ?_, fun h => ?_⟩)
        · rcases Nat.lt_or_ge m k with hlt | hge
          · have : k = m + 1 := by omega
            subst this
            exact ⟨g1, rfl, rfl⟩
          · obtain ⟨r1, r2, r3⟩ := hrun k hk hge
            exact ⟨r1, r2.trans g2.symm, r3.trans g3.symm⟩
        · rw [← hf] at g2 g3
          rw [g2, g3]; exact hgap h
      · have hm' : m = σ + N := le_antisymm hat.le hm
        have hq : ((m : ℝ) - σ) / N = 1 := by
          rw [hm']; push_cast; field_simp; ring
        have hinc := hat.inc
        have hpos := hat.pos
        have hgoal := hat.goal
        rw [hq] at hpos
        have hx : m + 1 - 1 - N = σ := by omega
        cases up
        · simp only [Bool.false_eq_true, if_false, sub_self] at hpos hinc hgoal
          have hne : (f m).inc ≠ 0 := by rw [hinc]; linarith
          refine Or.inr (Or.inr (Or.inr ⟨?_, ?_, Or.inr ⟨by omega, ?_⟩⟩))
          · rw [hs, fade]; simp [hpos, hne]
          · rw [hs, fade]; simp [hpos, hne]
          · rw [hx, ← hgoal, hs, fade]; simp [hpos]
        · simp only [if_true] at hpos hinc hgoal
          have hne : (f m).inc ≠ 0 := by rw [hinc]; linarith
          refine Or.inr (Or.inr (Or.inl ⟨?_, ?_, Or.inr ⟨by omega, ?_⟩⟩))
          · rw [hs, fade]; simp [hpos, hne]
          · rw [hs, fade]; simp [hpos, hne]
          · rw [hx, ← hgoal, hs, fade]; simp [hpos]
    · refine hi m h1 h2 fun h => ?_
      rcases h3 with ⟨h3, h4⟩ | ⟨h3, h4⟩
      · rw [h3]; exact hJ _ _ (by omega) (by omega) (by omega)
      · rw [h4]; exact hJ _ _ (by omega) (by omega) (by omega)
    · refine lo m h1 h2 fun h => ?_
      rcases h3 with ⟨h3, h4⟩ | ⟨h3, h4⟩
      · rw [h3]; exact hJ _ _ (by omega) (by omega) (by omega)
      · rw [h4]; exact hJ _ _ (by omega) (by omega) (by omega)

/-- A cross-fade under way has been under way since it began. -/
lemma at_earlier (hN : 0 < N)
    (hJ : ∀ i j, n₁ ≤ i → i ≤ j → j ≤ i + N + 1 → |trg i - trg j| ≤ J) {up : Bool} {σ m : ℕ}
    (h : At N trg (fades (1 / (N : ℝ)) trg) up σ m) :
    (∀ k, σ < k → k ≤ m → At N trg (fades (1 / (N : ℝ)) trg) up σ k) ∧
      (n₁ + N + 1 ≤ σ →
        |(fades (1 / (N : ℝ)) trg m).a - (fades (1 / (N : ℝ)) trg m).b| ≤ J) := by
  have hNr : (0 : ℝ) < N := by exact_mod_cast hN
  have p3 : (0 : ℝ) < 1 / N := by positivity
  have hne : (fades (1 / (N : ℝ)) trg m).inc ≠ 0 := by
    rw [h.inc]; split_ifs <;> [exact p3.ne'; linarith]
  rcases inv_all hN hJ m with h0 | ⟨σ', up', hat, hrun, hgap⟩ | ⟨h1, -, -⟩ | ⟨h1, -, -⟩
  · have := h.lt; omega
  · obtain ⟨e1, e2⟩ := at_unique hN h hat
    subst e1 e2
    exact ⟨fun k h1 h2 => (hrun k h1 h2).1, hgap⟩
  · exact absurd h1 hne
  · exact absurd h1 hne

lemma clip_mono {a b : ℤ} (h : a ≤ b) : clip a ≤ clip b := by
  unfold clip; omega

lemma clip_near {a b : ℤ} {J : ℕ} (h : |a - b| ≤ J) :
    max (clip a) (clip b) ≤ min (clip a) (clip b) + J := by
  rw [abs_le] at h
  unfold clip; omega

/-- Reading a line that has been written since frame 0. -/
def at' (s : ℕ → ℝ) (n k : ℕ) : ℝ := if k ≤ n then s (n - k) else 0

lemma sq_convex {d : ℝ} (h0 : 0 ≤ d) (h1 : d ≤ 1) (a b : ℝ) :
    ((1 - d) * a + d * b) ^ 2 ≤ (1 - d) * a ^ 2 + d * b ^ 2 := by
  nlinarith [mul_nonneg (mul_nonneg (sub_nonneg.2 h1) h0) (sq_nonneg (a - b))]

/-- The modulated delay: what is read against what is written. -/
lemma held_fade {W : ℝ} (hW : 1 ≤ W) {J : ℕ} {ε : ℝ} {lo hi : ℤ} {Q : ℕ} (hQ : Q = 65537) (hN : 0 < N)
    (hJ : ∀ i j, n₁ ≤ i → i ≤ j → j ≤ i + N + 1 → |trg i - trg j| ≤ (J : ℤ))
    (htrg : ∀ i, lo ≤ trg i ∧ trg i ≤ hi) (hrange : hi - lo + 2 * J ≤ N)
    (hε : W ^ Q * (1 + 2 * J / N) ≤ 1 + ε) {s e : ℕ → ℝ} (he0 : e 0 = 0)
    (he : ∀ n, e (n + 1) = at' s n (clip (fades (1 / (N : ℝ)) trg (n + 1)).a)
      + (fades (1 / (N : ℝ)) trg (n + 1)).pos * (at' s n (clip (fades (1 / (N : ℝ)) trg (n + 1)).b)
        - at' s n (clip (fades (1 / (N : ℝ)) trg (n + 1)).a))) :
    Held W ε e s := by
  have hNr : (0 : ℝ) < N := by exact_mod_cast hN
  have p3 : (0 : ℝ) < 1 / N := by positivity
  have hW0 : 0 ≤ W := by linarith
  have hp : ∀ n, 0 ≤ W ^ n := fun n => pow_nonneg hW0 n
  set f := fades (1 / (N : ℝ)) trg with hf
  set n₀ := n₁ + 2 * N + 65537 with hn₀
  set Fd : ℕ → ℕ → Prop := fun σ n => ∃ up, At N trg f up σ (n + 1) with hFd
  have hs : ∀ k, f (k + 1) = fade (1 / (N : ℝ)) (trg k) (f k) := fun k => rfl
  have hposle : ∀ n, 0 ≤ (f (n + 1)).pos ∧ (f (n + 1)).pos ≤ 1 := fun n => by
    rw [hs, fade]
    exact ⟨le_max_left _ _, max_le zero_le_one (min_le_left _ _)⟩
  have hposeq : ∀ n, (f (n + 1)).pos = max 0 (min 1 ((f n).pos + (f (n + 1)).inc)) := fun n => by
    rw [hs, fade]
  have hclip : ∀ i, clip i ≤ 65536 := fun i => by unfold clip; omega
  have hinc : ∀ m, (f m).inc = 0 ∨ |(f m).inc| = 1 / N ∧ ∃ σ up, At N trg f up σ m := by
    intro m
    rcases inv_all hN hJ m with h0 | ⟨σ, up, hat, -, -⟩ | ⟨h1, -, -⟩ | ⟨h1, -, -⟩
    · subst h0; exact Or.inl rfl
    · refine Or.inr ⟨?_, σ, up, hat⟩
      rw [hat.inc]
      split_ifs
      · exact abs_of_pos p3
      · rw [zero_sub, abs_neg]; exact abs_of_pos p3
    · exact Or.inl h1
    · exact Or.inl h1
  have hread := fun (v : ℕ → ℝ) (hv : ∀ n, 0 ≤ v n) (T : ℕ) (hT : n₀ ≤ T) =>
    read_energy (N := N) (J := J) (n₀ := n₀) (M := 65536) hN
      (d := fun n => (f (n + 1)).pos) (A := fun n => clip (f (n + 1)).a)
      (B := fun n => clip (f (n + 1)).b) (Fd := Fd) (by omega) (fun n => hclip _) (fun n => hclip _)
      hposle
      (fun n h => by
        have : (f (n + 1 + 1)).a ≠ (f (n + 1)).a := fun hh => h (by rw [hh])
        rw [hs (n + 1), fade] at this
        simp only at this
        by_cases hc : 1 ≤ (f (n + 1)).pos ∧ (f (n + 1)).b ≠ trg (n + 1)
        · exact le_antisymm (hposle n).2 hc.1
        · rw [if_neg hc] at this; exact absurd rfl this)
      (fun n h => by
        have : (f (n + 1 + 1)).b ≠ (f (n + 1)).b := fun hh => h (by rw [hh])
        rw [hs (n + 1), fade] at this
        simp only at this
        by_cases hc : (f (n + 1)).pos ≤ 0 ∧ (f (n + 1)).a ≠ trg (n + 1)
        · exact le_antisymm hc.1 (hposle n).1
        · rw [if_neg hc] at this; exact absurd rfl this)
      (fun n h => by
        rcases hinc (n + 1 + 1) with h0 | ⟨-, σ, up, hat⟩
        · exfalso; apply h
          rw [hposeq (n + 1), h0, add_zero, min_eq_right (hposle n).2, max_eq_right (hposle n).1]
        · exact ⟨σ, up, hat⟩)
      (fun n => by
        have h1 := hposle n
        have h2 := hposeq (n + 1)
        have h3 : |(f (n + 1 + 1)).inc| ≤ 1 / N := by
          rcases hinc (n + 1 + 1) with h0 | ⟨h0, -⟩
          · rw [h0, abs_zero]; exact p3.le
          · exact h0.le
        rw [h2]
        rw [abs_le] at h3 ⊢
        constructor
        · have : (f (n + 1)).pos - 1 / N ≤ max 0 (min 1 ((f (n + 1)).pos + (f (n + 1 + 1)).inc)) :=
            le_max_of_le_right (le_min (by linarith) (by linarith))
          linarith
        · have : max 0 (min 1 ((f (n + 1)).pos + (f (n + 1 + 1)).inc)) ≤ (f (n + 1)).pos + 1 / N :=
            max_le (by linarith) (le_trans (min_le_right _ _) (by linarith))
          linarith)
      (fun σ n ⟨up, h⟩ => ⟨by have := h.lt; omega, by have := h.le; omega⟩)
      (fun σ n hn ⟨up, h⟩ => clip_near ((at_earlier hN hJ h).2 (by have := h.le; omega)))
      (fun σ n n' ⟨up, h⟩ ⟨up', h'⟩ => by
        have hup : up = up' := by
          have g := (at_later hN h (k := σ + N) h.le le_rfl).1
          have g' := (at_later hN h' (k := σ + N) h'.le le_rfl).1
          exact (at_unique hN g g').1
        subst hup
        rcases le_total n n' with hle | hle
        · obtain ⟨-, e1, e2⟩ := at_later hN h (k := n' + 1) (by omega) h'.le
          rw [hf, e1, e2]; exact ⟨rfl, rfl⟩
        · obtain ⟨-, e1, e2⟩ := at_later hN h' (k := n + 1) (by omega) h.le
          rw [hf, e1, e2]; exact ⟨rfl, rfl⟩)
      (fun σ σ' n n' ⟨up, h⟩ ⟨up', h'⟩ hlt => by
        by_contra hcon
        have r := (at_earlier hN hJ h).1
        have r' := (at_earlier hN hJ h').1
        have l' := h'.lt
        have : σ = σ' := by
          by_cases c1 : n + 1 ≤ σ'
          · exact (at_unique hN (at_later hN h (k := σ' + 1) (by omega) (by omega)).1
              (r' (σ' + 1) (by omega) (by omega))).2
          · rcases le_total n n' with hle | hle
            · exact (at_unique hN h (r' (n + 1) (by omega) (by omega))).2
            · exact (at_unique hN (r (n' + 1) (by omega) (by omega)) h').2
        omega)
      (fun σ σ' n n' hn hn' ⟨up, h⟩ ⟨up', h'⟩ => by
        have key : ∀ (σ n : ℕ) (up : Bool), n₀ ≤ n → At N trg f up σ (n + 1) →
            lo - J ≤ (f (n + 1)).a ∧ (f (n + 1)).a ≤ hi + J ∧
            lo - J ≤ (f (n + 1)).b ∧ (f (n + 1)).b ≤ hi + J := by
          intro σ n up hn h
          have g := (at_earlier hN hJ h).2 (by have := h.le; omega)
          rw [← hf, abs_le] at g
          have t := htrg σ
          rw [← h.goal] at t
          cases up
          · simp only [Bool.false_eq_true, if_false] at t
            omega
          · simp only [if_true] at t
            omega
        obtain ⟨a1, a2, a3, a4⟩ := key σ n up hn h
        obtain ⟨b1, b2, b3, b4⟩ := key σ' n' up' hn' h'
        have x1 := clip_mono a1
        have x3 := clip_mono a3
        have y2 := clip_mono b2
        have y4 := clip_mono b4
        have z : clip (hi + J) ≤ clip (lo - J) + N := by unfold clip; omega
        omega)
      hv T hT
  intro c hc hca
  have hv : ∀ n, 0 ≤ W ^ n * (c n * s n ^ 2) := fun n =>
    mul_nonneg (hp n) (mul_nonneg (hc n) (sq_nonneg _))
  refine ⟨∑ n ∈ range (n₀ + 1), W ^ n * (c n * e n ^ 2),
    sum_nonneg fun n _ => mul_nonneg (hp n) (mul_nonneg (hc n) (sq_nonneg _)), fun T => ?_⟩
  have hε0 : 0 ≤ 1 + ε := le_trans (mul_nonneg (hp _) (by positivity)) hε
  have hS0 : 0 ≤ ∑ n ∈ range T, W ^ n * (c n * s n ^ 2) := sum_nonneg fun n _ => hv n
  rcases Nat.lt_or_ge T (n₀ + 1) with hT | hT
  · have : ∑ n ∈ range T, W ^ n * (c n * e n ^ 2) ≤ ∑ n ∈ range (n₀ + 1), W ^ n * (c n * e n ^ 2) :=
      sum_le_sum_of_subset_of_nonneg (range_mono hT.le)
        fun n _ _ => mul_nonneg (hp n) (mul_nonneg (hc n) (sq_nonneg _))
    have := mul_nonneg hε0 hS0
    linarith
  · obtain ⟨S, rfl⟩ : ∃ S, T = S + 1 := ⟨T - 1, by omega⟩
    have hsplit : ∑ n ∈ range (S + 1), W ^ n * (c n * e n ^ 2)
        = ∑ n ∈ range (n₀ + 1), W ^ n * (c n * e n ^ 2)
          + ∑ n ∈ Ico n₀ S, W ^ (n + 1) * (c (n + 1) * e (n + 1) ^ 2) := by
      rw [← sum_range_add_sum_Ico (fun n => W ^ n * (c n * e n ^ 2)) hT, ← sum_Ico_add']
    have hterm : ∀ n ∈ Ico n₀ S, W ^ (n + 1) * (c (n + 1) * e (n + 1) ^ 2)
        ≤ W ^ Q * ((1 - (f (n + 1)).pos) * (W ^ (n - clip (f (n + 1)).a)
            * (c (n - clip (f (n + 1)).a) * s (n - clip (f (n + 1)).a) ^ 2))
          + (f (n + 1)).pos * (W ^ (n - clip (f (n + 1)).b)
            * (c (n - clip (f (n + 1)).b) * s (n - clip (f (n + 1)).b) ^ 2))) := by
      intro n hn
      rw [mem_Ico] at hn
      have hd := hposle n
      have hA := hclip (f (n + 1)).a
      have hB := hclip (f (n + 1)).b
      set d := (f (n + 1)).pos
      set A := clip (f (n + 1)).a
      set B := clip (f (n + 1)).b
      have heq : e (n + 1) = (1 - d) * s (n - A) + d * s (n - B) := by
        rw [he n]
        unfold at'
        rw [if_pos (by omega), if_pos (by omega)]
        ring
      have hconv : e (n + 1) ^ 2 ≤ (1 - d) * s (n - A) ^ 2 + d * s (n - B) ^ 2 := by
        rw [heq]
        exact sq_convex hd.1 hd.2 _ _
      have hw : ∀ k, k ≤ 65536 → W ^ (n + 1) * c (n + 1) ≤ W ^ Q * (W ^ (n - k) * c (n - k)) := by
        intro k hk
        have h1 : W ^ (n + 1) ≤ W ^ Q * W ^ (n - k) := by
          rw [← pow_add]; exact pow_le_pow_right₀ hW (by omega)
        have h2 : c (n + 1) ≤ c (n - k) := hca (by omega)
        calc W ^ (n + 1) * c (n + 1) ≤ (W ^ Q * W ^ (n - k)) * c (n - k) :=
              mul_le_mul h1 h2 (hc _) (mul_nonneg (hp _) (hp _))
          _ = _ := by ring
      have q1 := mul_le_mul_of_nonneg_right (hw A hA)
        (mul_nonneg (sub_nonneg.2 hd.2) (sq_nonneg (s (n - A))))
      have q2 := mul_le_mul_of_nonneg_right (hw B hB) (mul_nonneg hd.1 (sq_nonneg (s (n - B))))
      have q3 := mul_le_mul_of_nonneg_left hconv (mul_nonneg (hp (n + 1)) (hc (n + 1)))
      calc W ^ (n + 1) * (c (n + 1) * e (n + 1) ^ 2) = W ^ (n + 1) * c (n + 1) * e (n + 1) ^ 2 := by ring
        _ ≤ _ := q3
        _ = W ^ (n + 1) * c (n + 1) * ((1 - d) * s (n - A) ^ 2)
          + W ^ (n + 1) * c (n + 1) * (d * s (n - B) ^ 2) := by ring
        _ ≤ _ := add_le_add q1 q2
        _ = _ := by ring
    have hr := hread (fun n => W ^ n * (c n * s n ^ 2)) hv S (by omega)
    have hsum := sum_le_sum hterm
    rw [← mul_sum] at hsum
    have hS1 : ∑ n ∈ range S, W ^ n * (c n * s n ^ 2) ≤ ∑ n ∈ range (S + 1), W ^ n * (c n * s n ^ 2) :=
      sum_le_sum_of_subset_of_nonneg (range_mono (by omega)) fun n _ _ => hv n
    have h1 := mul_le_mul_of_nonneg_left hr (hp Q)
    have hk : 0 ≤ W ^ Q * (1 + 2 * (J : ℝ) / N) := mul_nonneg (hp _) (by positivity)
    have h2 := mul_le_mul_of_nonneg_left hS1 hk
    have h3 := mul_le_mul_of_nonneg_right hε hS0
    rw [hsplit, add_comm]
    refine add_le_add_left ?_ _
    refine le_trans hsum (le_trans h1 ?_)
    rw [← mul_assoc]
    exact le_trans h2 h3

end Verif.Reverb
